import Verif.Lemmas.ArrMul
import Verif.Lemmas.Families
import Verif.SpecArray

/-!
# From entry predicates to the specification
-/

namespace Verif

open MvPolynomial

/-- The entries of a matrix, with value zero outside. -/
def extM {X : Type} [Zero X] {r c : ℕ} (M : Matrix (Fin r) (Fin c) X) (i j : ℕ) : X :=
  if h : i < r ∧ j < c then M ⟨i, h.1⟩ ⟨j, h.2⟩ else 0

section
variable {X : Type} [Zero X] {r c : ℕ}

theorem extM_of (M : Matrix (Fin r) (Fin c) X) {i j : ℕ} (hi : i < r) (hj : j < c) :
    extM M i j = M ⟨i, hi⟩ ⟨j, hj⟩ := by
  unfold extM
  rw [dif_pos ⟨hi, hj⟩]

theorem extM_fin (M : Matrix (Fin r) (Fin c) X) (i : Fin r) (j : Fin c) :
    extM M i j = M i j := extM_of M i.2 j.2

end

theorem larr_ofFn {α : Type} {n : ℕ} {f : Fin n → α} {Q : ℕ → α → Prop} (h : ∀ i : Fin n, Q i (f i)) :
    LArr n Q (List.ofFn f) := by
  refine ⟨by simp, fun i a hi => ?_⟩
  have hi' : i < n := by
    by_contra hc
    rw [List.getElem?_eq_none (by simpa using hc)] at hi
    exact absurd hi (by simp)
  rw [List.getElem?_eq_getElem (by simpa using hi')] at hi
  simp only [List.getElem_ofFn, Option.some.injEq] at hi
  subst hi
  exact h ⟨i, hi'⟩

variable {R : Type} {r c : ℕ}

theorem shape_iff {e : Expr R} : e.Shape r c ↔ EArr r c (fun _ _ _ => True) e := by
  unfold Expr.Shape EArr Arr
  constructor
  · rintro ⟨h1, h2⟩
    exact LArr.of_all h1 fun i row _ hrow => LArr.of_all (h2 row hrow) fun _ _ _ _ => trivial
  · exact fun h => ⟨h.1, fun row hrow => Arr.rowLen h hrow⟩

theorem EArr.and_all {e : Expr R} {Q : ℕ → ℕ → Scalar R → Prop} (h : EArr r c Q e)
    {q : Scalar R → Prop} (hq : e.All q) : EArr r c (fun i j a => Q i j a ∧ q a) e := by
  refine ⟨h.1, fun i row hi => ⟨(h.2 i row hi).1, fun j a hj => ⟨(h.2 i row hi).2 j a hj, ?_⟩⟩⟩
  exact hq row (List.mem_of_getElem? hi) a (List.mem_of_getElem? hj)

theorem EArr.all {e : Expr R} {Q : ℕ → ℕ → Scalar R → Prop} (h : EArr r c Q e)
    {q : Scalar R → Prop} (hq : ∀ i j a, Q i j a → q a) : e.All q := by
  intro row hrow a ha
  obtain ⟨i, j, -, -, h1⟩ := Arr.mem h hrow ha
  exact hq i j a h1

theorem EArr.shape {e : Expr R} {Q : ℕ → ℕ → Scalar R → Prop} (h : EArr r c Q e) : e.Shape r c :=
  shape_iff.mpr (h.mono fun _ _ _ _ _ _ => trivial)

section Structure
variable [GoNum R]

/-- Well-formed array of a given shape, all of whose variables satisfy `P`. -/
theorem egood_of {e : Expr R} (hs : e.Shape r c) (hc : e.Canon) {P : Var R → Prop}
    (hP : ∀ v, e.Mentions v → P v) : EArr r c (fun _ _ => Good P Set.univ) e := by
  have h1 : e.All (Good P Set.univ) := fun row hrow a ha =>
    good_mentions (hc row hrow a ha) a.termsIn_univ fun v hv => hP v ⟨row, hrow, a, ha, hv⟩
  exact ((shape_iff.mp hs).and_all h1).mono fun _ _ _ _ _ h => h.2

theorem egood_spec {e : Expr R} {P : Var R → Prop} {D : Set (ℕ →₀ ℕ)}
    (h : EArr r c (fun _ _ => Good P D) e) :
    e.Shape r c ∧ e.Canon ∧ ∀ v, e.Mentions v → P v := by
  refine ⟨h.shape, h.all fun _ _ a ha => (good_iff.mp ha).1, ?_⟩
  rintro v ⟨row, hrow, a, ha, hv⟩
  exact (good_iff.mp (h.all (q := Good P D) (fun _ _ _ h => h) row hrow a ha)).2.2 v hv

end Structure

section Value
variable [Field R] [LinearOrder R]

omit [LinearOrder R] in
theorem denotes_iff {e : Expr R} {M : Matrix (Fin r) (Fin c) (MvPolynomial ℕ R)} :
    e.Denotes M ↔ EArr r c (fun i j a => a.den = extM M i j) e := by
  have hof : ∀ g : List (List (MvPolynomial ℕ R)),
      g = (List.ofFn fun i => List.ofFn fun j => M i j) ↔ Arr r c (fun i j p => p = extM M i j) g := by
    intro g
    constructor
    · rintro rfl
      exact larr_ofFn fun i => larr_ofFn fun j => (extM_fin M i j).symm
    · intro h
      refine Arr.of_eq h ?_
      refine larr_ofFn fun i => larr_ofFn fun j => ?_
      rintro b rfl
      rw [extM_fin]
  unfold Expr.Denotes EArr
  rw [hof, Arr.map_iff]

/-- An array with the given denotation. -/
theorem eden_of {e : Expr R} {M : Matrix (Fin r) (Fin c) (MvPolynomial ℕ R)} {D : Set (ℕ →₀ ℕ)}
    (hc : e.Canon) (ht : e.TermsIn D) (h : e.Denotes M) :
    EArr r c (fun i j => GoodDen (fun _ => True) D (extM M i j)) e :=
  (((denotes_iff.mp h).and_all hc).and_all ht).mono fun _ _ _ _ _ h =>
    ⟨good_of h.1.2 h.2, h.1.1⟩

theorem eden_spec {e : Expr R} {M : Matrix (Fin r) (Fin c) (MvPolynomial ℕ R)} {D : Set (ℕ →₀ ℕ)}
    {P : Var R → Prop} (h : EArr r c (fun i j => GoodDen P D (extM M i j)) e) :
    e.Canon ∧ e.TermsIn D ∧ e.Denotes M :=
  ⟨h.all fun _ _ _ ha => (good_iff.mp ha.1).1, h.all fun _ _ _ ha => (good_iff.mp ha.1).2.1,
    denotes_iff.mpr (h.mono fun _ _ _ _ _ ha => ha.2)⟩

/-- The pattern of the value theorems. -/
theorem eden_ok {x : Go (Expr R)} {M : Matrix (Fin r) (Fin c) (MvPolynomial ℕ R)}
    {D : Set (ℕ →₀ ℕ)} {f : ℕ → ℕ → MvPolynomial ℕ R} {Q : Expr R → Prop}
    (h : Go.Ok x (fun e => EArr r c (fun i j => GoodDen (fun _ => True) D (f i j)) e ∧ Q e))
    (hf : ∀ (i : Fin r) (j : Fin c), f i j = M i j) :
    ∃ e, x = .ok e ∧ e.Canon ∧ e.TermsIn D ∧ e.Denotes M := by
  obtain ⟨e, h1, h2, -⟩ := h
  refine ⟨e, h1, eden_spec (P := fun _ => True) (h2.mono fun i j a hi hj ha => ?_)⟩
  rw [extM_of M hi hj, ← hf ⟨i, hi⟩ ⟨j, hj⟩]
  exact ha

/-- The same, keeping the kind of the result. -/
theorem eden_ok_kind {x : Go (Expr R)} {M : Matrix (Fin r) (Fin c) (MvPolynomial ℕ R)}
    {D : Set (ℕ →₀ ℕ)} {f : ℕ → ℕ → MvPolynomial ℕ R} {Q : Expr R → Prop}
    (h : Go.Ok x (fun e => EArr r c (fun i j => GoodDen (fun _ => True) D (f i j)) e ∧ Q e))
    (hf : ∀ (i : Fin r) (j : Fin c), f i j = M i j) :
    ∃ e, x = .ok e ∧ e.Canon ∧ e.TermsIn D ∧ e.Denotes M ∧ Q e := by
  obtain ⟨e, h1, h2, h3⟩ := h
  obtain ⟨e', h4, h5, h6, h7⟩ := eden_ok (x := x) ⟨e, h1, h2, h3⟩ hf
  rw [h1, Except.ok.injEq] at h4
  subst h4
  exact ⟨e, h1, h5, h6, h7, h3⟩

theorem goodDen_check {P : Var R → Prop} {D : Set (ℕ →₀ ℕ)} {f : MvPolynomial ℕ R} {x : Scalar R}
    (h : GoodDen P D f x) : x.check = .ok () := h.1.check

theorem goodDen_plus {P : Var R → Prop} {D : Set (ℕ →₀ ℕ)} (hD : RearrFree D)
    {f g : MvPolynomial ℕ R} {x y : Scalar R} (hx : GoodDen P D f x) (hy : GoodDen P D g y) :
    Go.Ok (x.plus y) (GoodDen P D (f + g)) := by
  have := Scalar.plus_den hD hx.1 hy.1
  rwa [hx.2, hy.2] at this

theorem goodDen_mul {P : Var R → Prop} {D1 D2 D3 : Set (ℕ →₀ ℕ)} (hp : ProdIn D1 D2 D3)
    (hD : RearrFree D3) {f g : MvPolynomial ℕ R} {x y : Scalar R} (hx : GoodDen P D1 f x)
    (hy : GoodDen P D2 g y) : Go.Ok (x.mul y) (GoodDen P D3 (f * g)) := by
  have := Scalar.mul_den hp hD hx.1 hy.1
  rwa [hx.2, hy.2] at this

theorem goodDen_neg {P : Var R → Prop} {D : Set (ℕ →₀ ℕ)} (hD : RearrFree D)
    {f : MvPolynomial ℕ R} {x : Scalar R} (hx : GoodDen P D f x) :
    Go.Ok (x.mul (.k negOne)) (GoodDen P D (-f)) := by
  have := Scalar.mul_den (b := .k negOne) (prodIn_const D) hD hx.1 trivial
  rw [hx.2, Scalar.den_k] at this
  refine this.mono fun s hs => ⟨hs.1, hs.2.trans ?_⟩
  unfold negOne
  simp

end Value

end Verif
