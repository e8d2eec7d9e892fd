import Verif.Lemmas.Binary64
import Verif.Props.Binary

/-!
# C58: with coefficients of few bits, `float64` arithmetic is exact

The value theorems of C01 to C06, C09, C12 and C57 are about exact numbers.  Here the same operations
run on `float64`.  If the coefficients are multiples of `2^-u` (`u = 0`: integers) and the sum of their
absolute values stays within `2^53` units, then the run on `float64` is, step by step, the exact run:
the results agree, panics included.  So everything proved about exact numbers is true of the library as
compiled, for such operands.  Beyond 53 bits it is false.
-/

set_option linter.unusedSectionVars false

namespace Verif

open MvPolynomial

/-! ## Specification -/

/-- The value of a `float64`; NaN and infinities, which have none, are read as 0. -/
def F64.val : F64 → ℚ
  | .fin q => q
  | _ => 0

/-- The value of a bound of a variable: infinities are read as `± 2^1024`, beyond all finite floats. -/
def F64.bound : F64 → ℚ
  | .fin q => q
  | .inf false => 2 ^ 1024
  | .inf true => -2 ^ 1024
  | .nan => 0

/-- The same variable with exact bounds. -/
def Var.exact (v : Var F64) : Var ℚ := ⟨v.id, v.lower.bound, v.upper.bound, v.vtype, v.name, v.env⟩

/-- The same term with exact coefficient. -/
def Mono.exact (m : Mono F64) : Mono ℚ := ⟨m.coeff.val, m.exps, m.vars.map Var.exact⟩

/-- The same scalar expression with exact coefficients. -/
def Scalar.exact : Scalar F64 → Scalar ℚ
  | .k c => .k c.val
  | .var v => .var v.exact
  | .mono m => .mono m.exact
  | .poly p => .poly ⟨p.monos.map Mono.exact⟩

/-- The float is finite. -/
def F64.Finite (x : F64) : Prop := ∃ q, x = .fin q

/-- The bounds are numbers or infinities, not NaN. -/
def Var.BoundsOK (v : Var F64) : Prop := F64.Bound v.lower v.lower.bound ∧ F64.Bound v.upper v.upper.bound

/-- Finite coefficient, bounds that are not NaN. -/
def Mono.Finite (m : Mono F64) : Prop := m.coeff.Finite ∧ ∀ v ∈ m.vars, v.BoundsOK

/-- Finite coefficients, bounds that are not NaN. -/
def Scalar.Finite : Scalar F64 → Prop
  | .k c => c.Finite
  | .var v => v.BoundsOK
  | .mono m => m.Finite
  | .poly p => ∀ m ∈ p.monos, m.Finite

/-- The coefficients of a scalar expression. -/
def Scalar.coeffs : Scalar ℚ → List ℚ
  | .k c => [c]
  | .var _ => [1]
  | .mono m => [m.coeff]
  | .poly p => p.monos.map (·.coeff)

/-- The sum of the absolute values of the coefficients. -/
def Scalar.absSum (e : Scalar ℚ) : ℚ := (e.coeffs.map (|·|)).sum

/-- The coefficients are multiples of `2^-u`. -/
def Scalar.OnGrid (u : ℕ) (e : Scalar ℚ) : Prop := ∀ c ∈ e.coeffs, ∃ k : ℤ, c = (k : ℚ) / 2 ^ u

/-- Finite, with coefficients that are multiples of `2^-u` and have absolute values that add up to at
most `B`. -/
structure Scalar.Within (u : ℕ) (B : ℚ) (e : Scalar F64) : Prop where
  finite : e.Finite
  grid : e.exact.OnGrid u
  size : e.exact.absSum ≤ B

/-! ## The relation of the simulation -/

theorem vrel_iff {v : Var F64} {w : Var ℚ} : VRel F64.model v w ↔ v.BoundsOK ∧ w = v.exact := by
  have key : ∀ {x : F64} {q : ℚ}, F64.Bound x q ↔ F64.Bound x x.bound ∧ q = x.bound := by
    intro x q
    constructor
    · rintro (⟨rfl, h⟩ | ⟨rfl, rfl⟩ | ⟨rfl, rfl⟩)
      · exact ⟨Or.inl ⟨rfl, h⟩, rfl⟩
      · exact ⟨Or.inr (Or.inl ⟨rfl, rfl⟩), rfl⟩
      · exact ⟨Or.inr (Or.inr ⟨rfl, rfl⟩), rfl⟩
    · rintro ⟨h, rfl⟩; exact h
  obtain ⟨i, lo, up, t, s, e⟩ := v
  obtain ⟨i', lo', up', t', s', e'⟩ := w
  constructor
  · rintro ⟨h1, h2, h3, h4, h5, h6⟩
    obtain ⟨h5, h5'⟩ := key.1 h5
    obtain ⟨h6, h6'⟩ := key.1 h6
    exact ⟨⟨h5, h6⟩, by simp only at h1 h2 h3 h4 h5' h6'; subst h1 h2 h3 h4 h5' h6'; rfl⟩
  · rintro ⟨⟨h5, h6⟩, h⟩
    cases h
    exact ⟨rfl, rfl, rfl, rfl, h5, h6⟩

theorem forall₂_map_iff {α β : Type} {A : α → β → Prop} {f : α → β} {P : α → Prop}
    (h : ∀ a b, A a b ↔ P a ∧ b = f a) {l : List α} {l' : List β} :
    List.Forall₂ A l l' ↔ (∀ a ∈ l, P a) ∧ l' = l.map f := by
  constructor
  · intro hl
    induction hl with
    | nil => simp
    | cons hx _ ih =>
      obtain ⟨h1, h2⟩ := (h _ _).1 hx
      refine ⟨?_, by rw [List.map_cons, ← h2, ← ih.2]⟩
      intro a ha
      rcases List.mem_cons.1 ha with rfl | ha
      · exact h1
      · exact ih.1 a ha
  · rintro ⟨h1, rfl⟩
    induction l with
    | nil => exact List.Forall₂.nil
    | cons a l ih =>
      exact List.Forall₂.cons ((h _ _).2 ⟨h1 a List.mem_cons_self, rfl⟩)
        (ih fun b hb => h1 b (List.mem_cons_of_mem _ hb))

theorem crel_iff {u : ℕ} {x : F64} {q : ℚ} :
    CRel F64.model (dyadics u) x q ↔ x.Finite ∧ q = x.val ∧ q ∈ dyadics u := by
  constructor
  · rintro ⟨rfl, h⟩; exact ⟨⟨q, rfl⟩, rfl, h⟩
  · rintro ⟨⟨p, rfl⟩, rfl, h⟩; exact ⟨rfl, h⟩

theorem mrel_iff {u : ℕ} {m : Mono F64} {n : Mono ℚ} :
    MRel F64.model (dyadics u) m n ↔ m.Finite ∧ n = m.exact ∧ n.coeff ∈ dyadics u := by
  obtain ⟨c, es, vs⟩ := m
  obtain ⟨c', es', vs'⟩ := n
  unfold MRel Mono.Finite Mono.exact
  rw [crel_iff, forall₂_map_iff (A := VRel F64.model) (P := Var.BoundsOK) (f := Var.exact)
    (fun _ _ => vrel_iff)]
  constructor
  · rintro ⟨⟨h1, h2, h3⟩, h4, h5, h6⟩
    simp only at h2 h4 h6
    subst h2 h4 h6
    exact ⟨⟨h1, h5⟩, rfl, h3⟩
  · rintro ⟨⟨h1, h5⟩, h, h3⟩
    cases h
    exact ⟨⟨h1, rfl, h3⟩, rfl, h5, rfl⟩

/-- The relation of the simulation, read on the floats. -/
theorem srel_iff {u : ℕ} {B : ℚ} {a : Scalar F64} {b : Scalar ℚ} :
    SRel F64.model (dyadics u) B a b ↔ a.Within u B ∧ b = a.exact := by
  constructor
  · intro h
    match a, b, h with
    | .k x, .k q, h =>
      obtain ⟨h1, rfl, h3⟩ := crel_iff.1 h.1
      exact ⟨⟨h1, by simpa [Scalar.OnGrid, Scalar.exact, Scalar.coeffs] using mem_dyadics.1 h3,
        by simpa [Scalar.absSum, Scalar.exact, Scalar.coeffs] using h.2⟩, rfl⟩
    | .var v, .var w, h =>
      obtain ⟨h1, rfl⟩ := vrel_iff.1 h.1
      exact ⟨⟨h1, by
        simpa [Scalar.OnGrid, Scalar.exact, Scalar.coeffs] using mem_dyadics.1 (dyadicGrids.one u),
        by simpa [Scalar.absSum, Scalar.exact, Scalar.coeffs] using h.2⟩, rfl⟩
    | .mono m, .mono n, h =>
      obtain ⟨h1, rfl, h3⟩ := mrel_iff.1 h.1
      exact ⟨⟨h1, by simpa [Scalar.OnGrid, Scalar.exact, Scalar.coeffs] using mem_dyadics.1 h3,
        by simpa [Scalar.absSum, Scalar.exact, Scalar.coeffs] using h.2⟩, rfl⟩
    | .poly ⟨l⟩, .poly ⟨l'⟩, h =>
      obtain ⟨h1, h2⟩ := h
      have e : l' = l.map Mono.exact :=
        ((forall₂_map_iff (A := fun m n => m.Finite ∧ n = Mono.exact m) (P := Mono.Finite)
          (fun _ _ => Iff.rfl)).1 (h1.imp fun m n h => ⟨(mrel_iff.1 h).1, (mrel_iff.1 h).2.1⟩)).2
      have f : ∀ m ∈ l, m.Finite :=
        ((forall₂_map_iff (A := fun m n => m.Finite ∧ n = Mono.exact m) (P := Mono.Finite)
          (fun _ _ => Iff.rfl)).1 (h1.imp fun m n h => ⟨(mrel_iff.1 h).1, (mrel_iff.1 h).2.1⟩)).1
      have g : ∀ n ∈ l', n.coeff ∈ dyadics u := by
        simp only at h1
        clear h2 e f
        induction h1 with
        | nil => simp
        | cons hx _ ih =>
          intro n hn
          rcases List.mem_cons.1 hn with rfl | hn
          · exact (mrel_iff.1 hx).2.2
          · exact ih n hn
      subst e
      refine ⟨⟨f, ?_, ?_⟩, rfl⟩
      · intro c hc
        obtain ⟨n, hn, rfl⟩ := List.mem_map.1 hc
        exact g n hn
      · simpa [Scalar.absSum, Scalar.exact, Scalar.coeffs, lnorm, Function.comp_def] using h2
  · rintro ⟨⟨h1, h2, h3⟩, rfl⟩
    match a with
    | .k x =>
      exact ⟨crel_iff.2 ⟨h1, rfl, h2 _ (by simp [Scalar.exact, Scalar.coeffs])⟩,
        by simpa [Scalar.absSum, Scalar.exact, Scalar.coeffs] using h3⟩
    | .var v =>
      exact ⟨vrel_iff.2 ⟨h1, rfl⟩, by simpa [Scalar.absSum, Scalar.exact, Scalar.coeffs] using h3⟩
    | .mono m =>
      exact ⟨mrel_iff.2 ⟨h1, rfl, h2 _ (by simp [Scalar.exact, Scalar.coeffs])⟩,
        by simpa [Scalar.absSum, Scalar.exact, Scalar.coeffs] using h3⟩
    | .poly ⟨l⟩ =>
      refine ⟨?_, by
        simpa [Scalar.absSum, Scalar.exact, Scalar.coeffs, lnorm, Function.comp_def] using h3⟩
      have hg : ∀ m ∈ l, m.exact.coeff ∈ dyadics u := fun m hm =>
        h2 _ (List.mem_map.2 ⟨m.exact, List.mem_map.2 ⟨m, hm, rfl⟩, rfl⟩)
      have hfin : ∀ m ∈ l, m.Finite := h1
      simp only
      clear h1 h2 h3
      induction l with
      | nil => exact List.Forall₂.nil
      | cons m l ih =>
        exact List.Forall₂.cons (mrel_iff.2 ⟨hfin m List.mem_cons_self, rfl, hg m List.mem_cons_self⟩)
          (ih (fun n hn => hg n (List.mem_cons_of_mem _ hn))
            (fun n hn => hfin n (List.mem_cons_of_mem _ hn)))

/-- What a run on floats and a run on exact numbers have to do with each other. -/
def SameRun (u : ℕ) (B : ℚ) (x : Go (Scalar F64)) (y : Go (Scalar ℚ)) : Prop :=
  x.map Scalar.exact = y ∧ ∀ r, x = .ok r → r.Within u B

theorem sameRun_iff {u : ℕ} {B : ℚ} {x : Go (Scalar F64)} {y : Go (Scalar ℚ)} :
    Go.Rel (SRel F64.model (dyadics u) B) x y ↔ SameRun u B x y := by
  unfold SameRun
  match x, y with
  | .ok a, .ok b =>
    show SRel _ _ _ _ _ ↔ _
    rw [srel_iff]
    constructor
    · rintro ⟨h, rfl⟩
      exact ⟨rfl, fun r hr => by cases hr; exact h⟩
    · rintro ⟨h1, h2⟩
      exact ⟨h2 a rfl, (Except.ok.inj h1).symm⟩
  | .error e, .error f =>
    constructor
    · intro h; cases (show e = f from h); exact ⟨rfl, fun r hr => by cases hr⟩
    · rintro ⟨h, -⟩; exact Except.error.inj h
  | .ok a, .error f => exact ⟨False.elim, fun h => by cases h.1⟩
  | .error e, .ok b => exact ⟨False.elim, fun h => by cases h.1⟩

theorem Scalar.Within.srel {u : ℕ} {B : ℚ} {a : Scalar F64} (h : a.Within u B) :
    SRel F64.model (dyadicGrids.g u) B a a.exact := srel_iff.2 ⟨h, rfl⟩

theorem F64.fit' {u : ℕ} {B : ℚ} (hu : u ≤ 1074) (hB : B * 2 ^ u ≤ 2 ^ 53) :
    Fit F64.model (dyadicGrids.g u) B := F64.fit hu hB

/-! ## The operations -/

variable {a b s : Scalar F64} {u w : ℕ} {A B S : ℚ}

/-- C58: addition on `float64` is exact addition. -/
theorem plus_float64 (ha : a.Within u A) (hb : b.Within u B) (hu : u ≤ 1074)
    (hB : (A + B) * 2 ^ u ≤ 2 ^ 53) :
    SameRun u (A + B) (a.plus b) (a.exact.plus b.exact) :=
  sameRun_iff.1 (SRel.plus (F64.fit' hu hB) ha.srel hb.srel)

/-- C58: subtraction on `float64` is exact subtraction. -/
theorem minus_float64 (ha : a.Within u A) (hb : b.Within u B) (hu : u ≤ 1074)
    (hB : (A + B) * 2 ^ u ≤ 2 ^ 53) :
    SameRun u (A + B) (a.minus b) (a.exact.minus b.exact) :=
  sameRun_iff.1 (SRel.minus (F64.fit' hu hB) ha.srel hb.srel)

/-- C58: multiplication on `float64` is exact multiplication. -/
theorem mul_float64 (ha : a.Within u A) (hb : b.Within w B) (hu : u + w ≤ 1074)
    (hB : A * B * 2 ^ (u + w) ≤ 2 ^ 53) :
    SameRun (u + w) (A * B) (a.mul b) (a.exact.mul b.exact) :=
  sameRun_iff.1 (SRel.mul (F64.fit' hu hB) ha.srel hb.srel)

/-- C58: powers on `float64` are exact powers. -/
theorem power_float64 {n : Int} (ha : a.Within u A) (hA : 1 ≤ A) (hu : n.toNat * u ≤ 1074)
    (hB : A ^ n.toNat * 2 ^ (n.toNat * u) ≤ 2 ^ 53) :
    SameRun (n.toNat * u) (A ^ n.toNat) (a.power n) (a.exact.power n) :=
  sameRun_iff.1 (SRel.power hA (F64.fit' hu hB) ha.srel)

/-- C58: simplification on `float64` is exact simplification. -/
theorem asSimplified_float64 (ha : a.Within u A) (hu : u ≤ 1074) (hB : A * 2 ^ u ≤ 2 ^ 53) :
    SameRun u A a.asSimplified a.exact.asSimplified :=
  sameRun_iff.1 (SRel.asSimplified (F64.fit' hu hB) ha.srel)

/-- C58: differentiation on `float64` is exact differentiation; `E` bounds the exponents. -/
theorem derivative_float64 {v : Var F64} {E : ℕ} (ha : a.Within u A) (hv : v.BoundsOK) (hu : u ≤ 1074)
    (hE1 : 1 ≤ E) (hE : ∀ n ∈ a.exact.termList, ∀ e ∈ n.exps, |(e : ℚ)| ≤ E) (hE53 : E ≤ 2 ^ 53)
    (hB : A * E * 2 ^ u ≤ 2 ^ 53) :
    SameRun u (A * E) (a.derivative v) (a.exact.derivative v.exact) :=
  sameRun_iff.1 (SRel.derivative (E := (E : ℚ)) (by exact_mod_cast hE1)
    (F64.fit' (Nat.zero_le _) (by rw [pow_zero, mul_one]; exact_mod_cast hE53))
    (F64.fit' hu hB) ha.srel hE (vrel_iff.2 ⟨hv, rfl⟩))

theorem subst_fits {D : ℕ} (hS : 1 ≤ S) (hu : u + D * w ≤ 1074)
    (hB : max 1 A * S ^ D * 2 ^ (u + D * w) ≤ 2 ^ 53) :
    Fit F64.model (dyadicGrids.g (D * w)) (S ^ D) ∧
      Fit F64.model (dyadicGrids.g (u + D * w)) (A * S ^ D) := by
  have h0 : (0 : ℚ) ≤ S ^ D := pow_nonneg (zero_le_one.trans hS) D
  have h2 : (0 : ℚ) ≤ 2 ^ (u + D * w) := by positivity
  constructor
  · refine F64.fit' (by omega) (le_trans ?_ hB)
    calc S ^ D * 2 ^ (D * w) ≤ S ^ D * 2 ^ (u + D * w) :=
          mul_le_mul_of_nonneg_left (pow_le_pow_right₀ (by norm_num) (by omega)) h0
      _ = 1 * S ^ D * 2 ^ (u + D * w) := by rw [one_mul]
      _ ≤ max 1 A * S ^ D * 2 ^ (u + D * w) :=
          mul_le_mul_of_nonneg_right (mul_le_mul_of_nonneg_right (le_max_left _ _) h0) h2
  · refine F64.fit' hu (le_trans ?_ hB)
    exact mul_le_mul_of_nonneg_right (mul_le_mul_of_nonneg_right (le_max_right _ _) h0) h2

/-- C58: substitution on `float64` is exact substitution; `D` bounds the number of factors of a term. -/
theorem substitute_float64 {v : Var F64} {D : ℕ} (ha : a.Within u A) (hv : v.BoundsOK)
    (hs : s.Within w S) (hS : 1 ≤ S) (hD1 : 1 ≤ D) (hD : ∀ n ∈ a.exact.termList, n.size ≤ D)
    (hu : u + D * w ≤ 1074) (hB : max 1 A * S ^ D * 2 ^ (u + D * w) ≤ 2 ^ 53) :
    SameRun (u + D * w) (A * S ^ D) (a.substitute v s) (a.exact.substitute v.exact s.exact) := by
  obtain ⟨h1, h2⟩ := subst_fits hS hu hB
  exact sameRun_iff.1 (SRel.substitute hS h1 ha.srel hD hD1 h2 (vrel_iff.2 ⟨hv, rfl⟩) hs.srel)

/-- C58: substitution of several variables on `float64` is exact substitution. -/
theorem substMap_float64 {sm : SubMap F64} {D : ℕ} (ha : a.Within u A)
    (hs : ∀ kv ∈ sm, kv.1.BoundsOK ∧ kv.2.Within w S) (hS : 1 ≤ S) (hD1 : 1 ≤ D)
    (hD : ∀ n ∈ a.exact.termList, n.size ≤ D)
    (hu : u + D * w ≤ 1074) (hB : max 1 A * S ^ D * 2 ^ (u + D * w) ≤ 2 ^ 53) :
    SameRun (u + D * w) (A * S ^ D) (a.substMap sm)
      (a.exact.substMap (sm.map fun kv => (kv.1.exact, kv.2.exact))) := by
  obtain ⟨h1, h2⟩ := subst_fits hS hu hB
  refine sameRun_iff.1 (SRel.substMap hS h1 ha.srel hD hD1 h2 ?_)
  refine (forall₂_map_iff (P := fun kv => kv.1.BoundsOK ∧ kv.2.Within w S)
    (fun kv kv' => ?_)).2 ⟨hs, rfl⟩
  show VRel _ _ _ ∧ SRel _ (dyadics w) _ _ _ ↔ _
  rw [vrel_iff, srel_iff]
  constructor
  · rintro ⟨⟨h1, h2⟩, h3, h4⟩
    exact ⟨⟨h1, h3⟩, Prod.ext h2 h4⟩
  · rintro ⟨⟨h1, h3⟩, rfl⟩
    exact ⟨⟨h1, rfl⟩, h3, rfl⟩

/-- C58: the constant and the degree that are read from a `float64` expression are the exact ones. -/
theorem constant_degree_float64 (ha : a.Within u A) :
    a.constant.map F64.val = a.exact.constant ∧ a.degree = a.exact.degree := by
  constructor
  · have h := ha.srel.constant
    revert h
    generalize a.constant = x
    generalize a.exact.constant = y
    intro h
    match x, y, h with
    | .ok x, .ok q, h => obtain ⟨⟨rfl, -⟩, -⟩ := h; rfl
    | .error e, .error f, h => cases (show e = f from h); rfl
  · have h := ha.srel.degree
    revert h
    generalize a.degree = x
    generalize a.exact.degree = y
    intro h
    match x, y, h with
    | .ok x, .ok q, h => cases (show x = q from h); rfl
    | .error e, .error f, h => cases (show e = f from h); rfl

/-- C58: the linear coefficients that are read from a `float64` expression are the exact ones. -/
theorem linearCoeff_float64 (ha : a.Within u A) {wrt : List (List (Var F64))}
    (hw : ∀ ws ∈ wrt, ∀ v ∈ ws, v.BoundsOK) :
    (a.linearCoeff wrt).map (List.map F64.val) =
      a.exact.linearCoeff (wrt.map (List.map Var.exact)) := by
  have h := ha.srel.linearCoeff (dyadicGrids.one u) (wrt' := wrt.map (List.map Var.exact))
    ((forall₂_map_iff (P := fun ws => ∀ v ∈ ws, v.BoundsOK) (fun ws ws' =>
      forall₂_map_iff (A := VRel F64.model) (P := Var.BoundsOK) (f := Var.exact)
        (fun _ _ => vrel_iff))).2 ⟨hw, rfl⟩)
  revert h
  generalize a.linearCoeff wrt = x
  generalize a.exact.linearCoeff _ = y
  intro h
  match x, y, h with
  | .ok x, .ok q, h =>
    have h' : List.Forall₂ (fun x q => SRel F64.model (dyadics u) A (.k x) (.k q)) x q := h
    have : q = x.map F64.val := by
      induction h' with
      | nil => rfl
      | cons hx _ ih => rw [List.map_cons, ← ih ‹_›]; rw [hx.1.1]; rfl
    rw [this]; rfl
  | .error e, .error f, h => cases (show e = f from h); rfl

/-! ## What the exact theorems say about `float64` -/

theorem SameRun.ok {x : Go (Scalar F64)} {y : Go (Scalar ℚ)} {c : Scalar ℚ} (h : SameRun u B x y)
    (hy : y = .ok c) : ∃ r, x = .ok r ∧ r.exact = c ∧ r.Within u B := by
  obtain ⟨h1, h2⟩ := h
  subst hy
  match x, h1 with
  | .ok r, h1 => exact ⟨r, rfl, Except.ok.inj h1, h2 r rfl⟩

/-- C58 with C01: where terms are not rearrangements of one another, `Plus` on `float64` has exactly the
value of the sum. -/
theorem plus_float64_value {D : Set (ℕ →₀ ℕ)} (hD : RearrFree D) (ca : a.exact.Canon)
    (cb : b.exact.Canon) (ta : a.exact.TermsIn D) (tb : b.exact.TermsIn D) (ha : a.Within u A)
    (hb : b.Within u B) (hu : u ≤ 1074) (hB : (A + B) * 2 ^ u ≤ 2 ^ 53) (ρ : ℕ → ℚ) :
    ∃ r, a.plus b = .ok r ∧ r.exact.value ρ = a.exact.value ρ + b.exact.value ρ := by
  obtain ⟨c, hc, hv⟩ := plus_value_partial hD ca cb ta tb ρ
  obtain ⟨r, hr, rfl, -⟩ := (plus_float64 ha hb hu hB).ok hc
  exact ⟨r, hr, hv⟩

/-- C58 with C57: at 0/1 assignments, `Plus`, `Minus` and `Multiply` on `float64` have exactly the right
value. -/
theorem arithmetic_float64_binary (ca : a.exact.Canon) (cb : b.exact.Canon) (ha : a.Within u A)
    (hb : b.Within u B) (hu : u + u ≤ 1074) (hB : (A + B) * 2 ^ u ≤ 2 ^ 53)
    (hB2 : A * B * 2 ^ (u + u) ≤ 2 ^ 53) {ρ : ℕ → ℚ} (h : Binary ρ (a.exact.IDs ∪ b.exact.IDs)) :
    (∃ r, a.plus b = .ok r ∧ r.exact.value ρ = a.exact.value ρ + b.exact.value ρ) ∧
    (∃ r, a.minus b = .ok r ∧ r.exact.value ρ = a.exact.value ρ - b.exact.value ρ) ∧
    (∃ r, a.mul b = .ok r ∧ r.exact.value ρ = a.exact.value ρ * b.exact.value ρ) := by
  refine ⟨?_, ?_, ?_⟩
  · obtain ⟨c, hc, -, hv⟩ := plus_one_nonzero ca cb h.oneNonzero
    obtain ⟨r, hr, rfl, -⟩ := (plus_float64 ha hb (by omega) hB).ok hc
    exact ⟨r, hr, hv⟩
  · obtain ⟨c, hc, -, hv⟩ := minus_one_nonzero ca cb h.oneNonzero
    obtain ⟨r, hr, rfl, -⟩ := (minus_float64 ha hb (by omega) hB).ok hc
    exact ⟨r, hr, hv⟩
  · obtain ⟨c, hc, -, hv⟩ := mul_one_nonzero ca cb h.oneNonzero
    obtain ⟨r, hr, rfl, -⟩ := (mul_float64 ha hb hu hB2).ok hc
    exact ⟨r, hr, hv⟩

/-! ## The hypotheses are met; beyond 53 bits the claim is false -/

/-- An unbounded variable. -/
def f64Var (i : ℕ) : Var F64 := ⟨i, .inf true, .inf false, 67, "x", 0⟩

theorem f64Var_bounds (i : ℕ) : (f64Var i).BoundsOK :=
  ⟨Or.inr (Or.inr ⟨rfl, rfl⟩), Or.inr (Or.inl ⟨rfl, rfl⟩)⟩

/-- `3/2 x y^2 - 1/4 x + 5`. -/
def f64Poly : Scalar F64 := .poly ⟨[⟨.fin (3 / 2), [1, 2], [f64Var 1, f64Var 2]⟩,
  ⟨.fin (-1 / 4), [1], [f64Var 1]⟩, ⟨.fin 5, [], []⟩]⟩

theorem f64Poly_within : f64Poly.Within 2 7 := by
  refine ⟨?_, ?_, ?_⟩
  · intro m hm
    fin_cases hm
    · exact ⟨⟨_, rfl⟩, by intro v hv; fin_cases hv <;> exact f64Var_bounds _⟩
    · exact ⟨⟨_, rfl⟩, by intro v hv; fin_cases hv; exact f64Var_bounds _⟩
    · exact ⟨⟨_, rfl⟩, by intro v hv; cases hv⟩
  · intro c hc
    fin_cases hc
    · exact ⟨6, by simp only [Mono.exact, F64.val]; norm_num⟩
    · exact ⟨-1, by simp only [Mono.exact, F64.val]; norm_num⟩
    · exact ⟨20, by simp only [Mono.exact, F64.val]; norm_num⟩
  · simp only [Scalar.absSum, f64Poly, Scalar.exact, Scalar.coeffs, Mono.exact, F64.val, List.map_cons,
      List.map_nil, List.sum_cons, List.sum_nil]
    norm_num [abs_of_pos, abs_of_neg]

example : SameRun 2 (7 + 7) (f64Poly.plus f64Poly) (f64Poly.exact.plus f64Poly.exact) :=
  plus_float64 f64Poly_within f64Poly_within (by norm_num) (by norm_num)

example : SameRun 2 (7 + 7) (f64Poly.minus f64Poly) (f64Poly.exact.minus f64Poly.exact) :=
  minus_float64 f64Poly_within f64Poly_within (by norm_num) (by norm_num)

example : SameRun (2 + 2) (7 * 7) (f64Poly.mul f64Poly) (f64Poly.exact.mul f64Poly.exact) :=
  mul_float64 f64Poly_within f64Poly_within (by norm_num) (by norm_num)

example : SameRun (3 * 2) (7 ^ 3) (f64Poly.power 3) (f64Poly.exact.power 3) :=
  power_float64 (n := 3) f64Poly_within (by norm_num) (by decide)
    (by rw [show (3 : Int).toNat = 3 from rfl]; norm_num)

example : SameRun 2 7 f64Poly.asSimplified f64Poly.exact.asSimplified :=
  asSimplified_float64 f64Poly_within (by norm_num) (by norm_num)

theorem f64Poly_exps : ∀ n ∈ f64Poly.exact.termList, ∀ e ∈ n.exps, |(e : ℚ)| ≤ (2 : ℕ) := by
  intro n hn e he
  fin_cases hn <;> fin_cases he <;> norm_num

theorem f64Poly_size : ∀ n ∈ f64Poly.exact.termList, n.size ≤ 3 := by
  intro n hn
  fin_cases hn <;> decide

example : SameRun 2 (7 * (2 : ℕ)) (f64Poly.derivative (f64Var 1))
    (f64Poly.exact.derivative (f64Var 1).exact) :=
  derivative_float64 f64Poly_within (f64Var_bounds 1) (by norm_num) (by norm_num) f64Poly_exps
    (by norm_num) (by norm_num)

example : SameRun (2 + 3 * 2) (7 * 7 ^ 3) (f64Poly.substitute (f64Var 1) f64Poly)
    (f64Poly.exact.substitute (f64Var 1).exact f64Poly.exact) :=
  substitute_float64 f64Poly_within (f64Var_bounds 1) f64Poly_within (by norm_num) (by norm_num)
    f64Poly_size (by norm_num) (by norm_num)

example : SameRun (2 + 3 * 2) (7 * 7 ^ 3) (f64Poly.substMap [(f64Var 1, f64Poly)])
    (f64Poly.exact.substMap [((f64Var 1).exact, f64Poly.exact)]) :=
  substMap_float64 f64Poly_within (sm := [(f64Var 1, f64Poly)])
    (by intro kv hkv; obtain rfl := List.mem_singleton.1 hkv; exact ⟨f64Var_bounds 1, f64Poly_within⟩) (by norm_num)
    (by norm_num) f64Poly_size (by norm_num) (by norm_num)

example : (f64Poly.linearCoeff [[f64Var 1, f64Var 2]]).map (List.map F64.val) =
    f64Poly.exact.linearCoeff [[(f64Var 1).exact, (f64Var 2).exact]] :=
  linearCoeff_float64 f64Poly_within (wrt := [[f64Var 1, f64Var 2]])
    (by intro ws hws v hv; fin_cases hws; fin_cases hv <;> exact f64Var_bounds _)

/-- `2^53 + 1` is not a `float64`: it is rounded to `2^53`. -/
theorem ofRat_two_pow_succ : F64.ofRat (2 ^ 53 + 1) = .fin (2 ^ 53) := by
  have hl : lastBit (2 ^ 53 + 1) = 1 := by
    unfold lastBit
    have e : |(2 ^ 53 + 1 : ℚ)| = ((2 ^ 53 + 1 : ℕ) : ℚ) := by
      rw [abs_of_pos (by positivity)]; norm_num
    rw [e, Int.log_natCast, Nat.log_eq_of_pow_le_of_lt_pow (m := 53) (by norm_num) (by norm_num)]
    norm_num
  have hr : round53 (2 ^ 53 + 1) = 2 ^ 53 := by
    unfold round53 roundEven
    rw [hl]
    have hf : ⌊((2 : ℚ) ^ 53 + 1) / 2 ^ (1 : ℤ)⌋ = 2 ^ 52 := by
      rw [Int.floor_eq_iff]; norm_num
    rw [hf]
    norm_num
  unfold F64.ofRat
  rw [hr, if_pos]
  rw [abs_of_pos (by positivity)]
  exact pow_lt_pow_right₀ (by norm_num) (by norm_num)

/-- `2^53 x`. -/
def f64Big : Scalar F64 := .mono ⟨.fin (2 ^ 53), [1], [f64Var 1]⟩

theorem f64Big_within : f64Big.Within 0 (2 ^ 53) := by
  refine ⟨⟨⟨_, rfl⟩, by intro v hv; fin_cases hv; exact f64Var_bounds _⟩, ?_, ?_⟩
  · intro c hc
    fin_cases hc
    exact ⟨2 ^ 53, by simp only [Mono.exact, F64.val]; norm_num⟩
  · simp only [Scalar.absSum, f64Big, Scalar.exact, Scalar.coeffs, Mono.exact, F64.val, List.map_cons,
      List.map_nil, List.sum_cons, List.sum_nil]
    rw [abs_of_pos (by positivity), add_zero]

theorem f64Var_within : (Scalar.var (f64Var 1)).Within 0 1 := by
  refine ⟨f64Var_bounds 1, ?_, ?_⟩
  · intro c hc
    fin_cases hc
    exact ⟨1, by norm_num⟩
  · simp [Scalar.absSum, Scalar.exact, Scalar.coeffs]

/-- One unit more than C58 allows and it is false: `2^53 x + x` is `2^53 x` on `float64`, so the value of
the sum is wrong at every assignment with `x ≠ 0`. -/
theorem plus_float64_false :
    f64Big.Within 0 (2 ^ 53) ∧ (Scalar.var (f64Var 1)).Within 0 1 ∧
      f64Big.plus (.var (f64Var 1)) = .ok f64Big ∧
      f64Big.exact.plus (Scalar.var (f64Var 1)).exact =
        .ok (.mono ⟨2 ^ 53 + 1, [1], [(f64Var 1).exact]⟩) := by
  refine ⟨f64Big_within, f64Var_within, ?_, ?_⟩
  · have e : GoNum.add (F64.fin (2 ^ 53)) GoNum.one = F64.fin (2 ^ 53) := ofRat_two_pow_succ
    have h1 : GoNum.feq (F64.fin (2 ^ 53)) GoNum.zero = false := by
      show decide ((2 : ℚ) ^ 53 = 0) = false
      norm_num
    have h2 : GoNum.feq (F64.fin (2 ^ 53)) GoNum.one = false := by
      show decide ((2 : ℚ) ^ 53 = 1) = false
      norm_num
    show Mono.plus _ _ = _
    have hc : (f64Var 1).check = .ok () := rfl
    simp [Mono.plus, Mono.check, Scalar.check, hc, Mono.isDegreeOne, Go.pure_eq, Go.ok_bind, e,
      Scalar.asSimplified, Mono.asSimplified, Mono.isConstant, h1, h2, f64Big]
  · have hc : (f64Var 1).exact.check = .ok () := by
      have : ¬ ((2 : ℚ) ^ 1024 ≤ -2 ^ 1024) := by
        have : (0 : ℚ) < 2 ^ 1024 := by positivity
        generalize (2 : ℚ) ^ 1024 = M at *
        linarith
      simp [Var.check, Var.exact, f64Var, F64.bound, this, Go.pure_eq]
    show Mono.plus _ _ = _
    simp [Mono.plus, Mono.check, Scalar.check, hc, Mono.isDegreeOne, Go.pure_eq, Go.ok_bind,
      Scalar.asSimplified, Mono.asSimplified, Mono.isConstant, Mono.exact, Scalar.exact,
      F64.val]
    norm_num

end Verif
