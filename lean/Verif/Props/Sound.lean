import Verif.Lemmas.Sound
import Verif.Props.Compile
import Verif.Props.Shapes
import Verif.WitnessArray

/-!
# C54: no silent wrong results

The properties C24 to C27 are false as stated because many pairs of kinds are rejected.  Here the kinds
are arbitrary: *if* `Plus`, `Minus` or `Multiply` returns a value for operands of fitting shapes, the
value is the sum, difference or product.  The first part holds for every number type, in particular for
floating point numbers, and is about shape, well-formedness and variables.
-/

namespace Verif

open MvPolynomial

variable {r n c : ℕ}

section Structure
variable {R : Type} [GoNum R] {a b e : Expr R} {s : Scalar R}

private theorem use {x : Go (Expr R)} {P : Var R → Prop} {f : ℕ → ℕ → PUnit.{1}}
    (h : Go.Post x (EArr r c fun i j => GoodU P (f i j))) (he : x = .ok e) :
    e.Shape r c ∧ e.Canon ∧ ∀ v, e.Mentions v → P v := egood_spec (h e he)

private theorem arr (hs : a.Shape r c) (hc : a.Canon) {P : Var R → Prop}
    (hP : ∀ v, a.Mentions v → P v) : EArr r c (fun _ _ => GoodU P PUnit.unit) a := egood_of hs hc hP

private theorem sca (hc : s.Canon) {P : Var R → Prop} (hP : ∀ v, s.Mentions v → P v) :
    GoodU P PUnit.unit s := good_mentions hc s.termsIn_univ hP

/-- C54, structure: the sum of two expressions of the same shape. -/
theorem plus_sound_struct (hr : 0 < r) (hc : 0 < c) (ha : a.Canon) (sa : a.Shape r c) (hb : b.Canon)
    (sb : b.Shape r c) (he : a.plus b = .ok e) :
    e.Shape r c ∧ e.Canon ∧ ∀ v, e.Mentions v → a.Mentions v ∨ b.Mentions v :=
  use (Expr.plus_post addSem_good hr hc (arr sa ha fun _ => Or.inl) (arr sb hb fun _ => Or.inr)) he

/-- C54, structure: the difference of two expressions of the same shape. -/
theorem minus_sound_struct (hr : 0 < r) (hc : 0 < c) (ha : a.Canon) (sa : a.Shape r c) (hb : b.Canon)
    (sb : b.Shape r c) (he : a.minus b = .ok e) :
    e.Shape r c ∧ e.Canon ∧ ∀ v, e.Mentions v → a.Mentions v ∨ b.Mentions v :=
  use (Expr.minus_post mulSem_good (κ := PUnit.unit) trivial hr hc (arr sa ha fun _ => Or.inl)
    (arr sb hb fun _ => Or.inr)) he

/-- C54, structure: the product of two expressions whose inner dimensions agree. -/
theorem mul_sound_struct (hr : 0 < r) (hn : 0 < n) (hc : 0 < c) (ha : a.Canon) (sa : a.Shape r n)
    (hb : b.Canon) (sb : b.Shape n c) (he : a.mul b = .ok e) :
    e.Shape r c ∧ e.Canon ∧ ∀ v, e.Mentions v → a.Mentions v ∨ b.Mentions v :=
  use (Expr.mul_post mulSem_good mulSem_good hr hn hc (arr sa ha fun _ => Or.inl)
    (arr sb hb fun _ => Or.inr)) he

/-- C54, structure: a scalar on the right. -/
theorem scalar_right_sound_struct (hr : 0 < r) (hc : 0 < c) (ha : a.Canon) (sa : a.Shape r c)
    (hs : s.Canon) (he : a.plus (.s s) = .ok e ∨ a.minus (.s s) = .ok e ∨ a.mul (.s s) = .ok e) :
    e.Shape r c ∧ e.Canon ∧ ∀ v, e.Mentions v → a.Mentions v ∨ s.Mentions v := by
  have h1 := arr sa ha (P := fun v => a.Mentions v ∨ s.Mentions v) fun _ => Or.inl
  have h2 := sca hs (P := fun v => a.Mentions v ∨ s.Mentions v) fun _ => Or.inr
  rcases he with he | he | he
  · exact use (Expr.plus_scalar_post addSem_good hr hc h1 h2) he
  · exact use (Expr.minus_scalar_post mulSem_good (κ := PUnit.unit) trivial hr hc h1 h2) he
  · exact use (Expr.mul_scalar_post mulSem_good hr hc h1 h2) he

/-- C54, structure: a scalar on the left. -/
theorem scalar_left_sound_struct (hr : 0 < r) (hc : 0 < c) (hs : s.Canon) (hb : b.Canon)
    (sb : b.Shape r c)
    (he : (Expr.s s).plus b = .ok e ∨ (Expr.s s).minus b = .ok e ∨ (Expr.s s).mul b = .ok e) :
    e.Shape r c ∧ e.Canon ∧ ∀ v, e.Mentions v → s.Mentions v ∨ b.Mentions v := by
  have h1 := arr sb hb (P := fun v => s.Mentions v ∨ b.Mentions v) fun _ => Or.inr
  have h2 := sca hs (P := fun v => s.Mentions v ∨ b.Mentions v) fun _ => Or.inl
  rcases he with he | he | he
  · exact use (Expr.scalar_plus_post addSem_good hr hc h2 h1) he
  · exact use (Expr.scalar_minus_post mulSem_good (κ := PUnit.unit) trivial hr hc h2 h1) he
  · exact use (Expr.scalar_mul_post mulSem_good mulSem_good hr hc h2 h1) he

variable {r' c' : ℕ}

private theorem dimAdd {l m l' m' : ℕ × ℕ} (h : checkDimAdd l' m' = .ok ()) (hl : l' = l) (hm : m' = m) :
    l = m ∨ l = (1, 1) ∨ m = (1, 1) := (checkDimAdd_iff l m).mp (hl ▸ hm ▸ h)

private theorem dimMul {l m l' m' : ℕ × ℕ} (h : checkDimMul l' m' = .ok ()) (hl : l' = l) (hm : m' = m) :
    l.2 = m.1 ∨ l = (1, 1) ∨ m = (1, 1) := (checkDimMul_iff l m).mp (hl ▸ hm ▸ h)

private theorem same {α : Type} {x : Go α} {a b : α} (h : x = .ok a) (h' : x = .ok b) : a = b := by
  rw [h, Except.ok.injEq] at h'
  exact h'

private theorem scalar_shape (sa : (Expr.s s).Shape r c) : (r, c) = (1, 1) := by
  obtain ⟨rfl, rfl⟩ := earr_s_dims (shape_iff.mp sa)
  rfl

private theorem rows_dims {a : Mat R} (ha : (Expr.m a).Canon) (sa : (Expr.m a).Shape r c) (hr : 0 < r) :
    (∀ rows, a = .k rows → rowDims rows = .ok (r, c)) ∧ (∀ rows, a = .v rows → rowDims rows = .ok (r, c)) ∧
    (∀ rows, a = .m rows → rowDims rows = .ok (r, c)) ∧ ∀ rows, a = .p rows → rowDims rows = .ok (r, c) := by
  have h := earr_m_iff.mp (egood_of sa ha (P := fun _ => True) fun _ _ => trivial)
  refine ⟨?_, ?_, ?_, ?_⟩ <;> rintro rows rfl <;> exact (Arr.map_iff.mp h).rowDims hr

/-- C54: a sum is only returned for equal shapes, or when one operand is 1 by 1. -/
theorem plus_shapes (hr : 0 < r) (hr' : 0 < r') (ha : a.Canon) (sa : a.Shape r c) (hb : b.Canon)
    (sb : b.Shape r' c') (he : a.plus b = .ok e) :
    (r, c) = (r', c') ∨ (r, c) = (1, 1) ∨ (r', c') = (1, 1) := by
  have db := Expr.dims_ok hb sb hr'
  have da := Expr.dims_ok ha sa hr
  suffices h : Go.Post (a.plus b) fun _ => (r, c) = (r', c') ∨ (r, c) = (1, 1) ∨ (r', c') = (1, 1) from
    h e he
  cases a with
  | s x => exact fun _ _ => Or.inr (Or.inl (scalar_shape sa))
  | v a => exact Go.post_bind' fun _ _ => Go.post_bind' fun _ _ => Go.post_bind' fun _ h1 =>
      Go.post_bind' fun _ h2 => Go.post_bind' fun _ h3 => fun _ _ =>
        dimAdd h3 (same h1 da) (same h2 db)
  | m a =>
    obtain ⟨d1, d2, d3, d4⟩ := rows_dims ha sa hr
    cases a with
    | k rows => exact Go.post_bind' fun _ _ => Go.post_bind' fun _ h1 => Go.post_bind' fun _ h2 =>
        Go.post_bind' fun _ h3 => fun _ _ => dimAdd h3 (same h1 (d1 _ rfl)) (same h2 db)
    | v rows => exact Go.post_bind' fun _ _ => Go.post_bind' fun _ _ => Go.post_bind' fun _ h1 =>
        Go.post_bind' fun _ h2 => Go.post_bind' fun _ h3 => fun _ _ =>
          dimAdd h3 (same h1 (d2 _ rfl)) (same h2 db)
    | m rows => exact Go.post_bind' fun _ _ => Go.post_bind' fun _ _ => Go.post_bind' fun _ h1 =>
        Go.post_bind' fun _ h2 => Go.post_bind' fun _ h3 => fun _ _ =>
          dimAdd h3 (same h1 (d3 _ rfl)) (same h2 db)
    | p rows => exact Go.post_bind' fun _ _ => Go.post_bind' fun _ _ => Go.post_bind' fun _ h1 =>
        Go.post_bind' fun _ h2 => Go.post_bind' fun _ h3 => fun _ _ =>
          dimAdd h3 (same h1 (d4 _ rfl)) (same h2 db)

/-- C54: a difference is only returned for equal shapes, or when one operand is 1 by 1. -/
theorem minus_shapes (hr : 0 < r) (hr' : 0 < r') (ha : a.Canon) (sa : a.Shape r c) (hb : b.Canon)
    (sb : b.Shape r' c') (he : a.minus b = .ok e) :
    (r, c) = (r', c') ∨ (r, c) = (1, 1) ∨ (r', c') = (1, 1) := by
  have db := Expr.dims_ok hb sb hr'
  have da := Expr.dims_ok ha sa hr
  suffices h : Go.Post (a.minus b) fun _ => (r, c) = (r', c') ∨ (r, c) = (1, 1) ∨ (r', c') = (1, 1) from
    h e he
  cases a with
  | s x => exact fun _ _ => Or.inr (Or.inl (scalar_shape sa))
  | v a =>
    cases a with
    | k l => exact Go.post_bind' fun _ _ => Go.post_bind' fun _ h2 => Go.post_bind' fun _ h3 =>
        fun _ _ => dimAdd h3 (same (x := Expr.dims (.v (.k l))) rfl da) (same h2 db)
    | _ => exact Go.post_bind' fun _ _ => Go.post_bind' fun _ _ => Go.post_bind' fun _ h1 =>
        Go.post_bind' fun _ h2 => Go.post_bind' fun _ h3 => fun _ _ =>
          dimAdd h3 (same h1 da) (same h2 db)
  | m a => exact Go.post_bind' fun _ _ => Go.post_bind' fun _ _ => Go.post_bind' fun _ h1 =>
      Go.post_bind' fun _ h2 => Go.post_bind' fun _ h3 => fun _ _ =>
        dimAdd h3 (same h1 da) (same h2 db)

/-- C54: a product is only returned when the inner dimensions agree or one operand is 1 by 1. -/
theorem mul_shapes (hr : 0 < r) (hr' : 0 < r') (ha : a.Canon) (sa : a.Shape r c) (hb : b.Canon)
    (sb : b.Shape r' c') (he : a.mul b = .ok e) :
    c = r' ∨ (r, c) = (1, 1) ∨ (r', c') = (1, 1) := by
  have db := Expr.dims_ok hb sb hr'
  have da := Expr.dims_ok ha sa hr
  suffices h : Go.Post (a.mul b) fun _ => c = r' ∨ (r, c) = (1, 1) ∨ (r', c') = (1, 1) from h e he
  cases a with
  | s x => exact fun _ _ => Or.inr (Or.inl (scalar_shape sa))
  | v a =>
    cases b with
    | s y => exact fun _ _ => Or.inr (Or.inr (scalar_shape sb))
    | v b => exact Go.post_bind' fun _ _ => Go.post_bind' fun _ _ => Go.post_bind' fun _ h1 =>
        Go.post_bind' fun _ h2 => Go.post_bind' fun _ h3 => fun _ _ =>
          dimMul h3 (same h1 da) (same h2 db)
    | m b => exact Go.post_bind' fun _ _ => Go.post_bind' fun _ _ => Go.post_bind' fun _ h1 =>
        Go.post_bind' fun _ h2 => Go.post_bind' fun _ h3 => fun _ _ =>
          dimMul h3 (same h1 da) (same h2 db)
  | m a =>
    obtain ⟨d1, d2, d3, d4⟩ := rows_dims ha sa hr
    cases a with
    | k rows => exact Go.post_bind' fun _ _ => Go.post_bind' fun _ h1 => Go.post_bind' fun _ h2 =>
        Go.post_bind' fun _ h3 => fun _ _ => dimMul h3 (same h1 (d1 _ rfl)) (same h2 db)
    | v rows => exact Go.post_bind' fun _ _ => Go.post_bind' fun _ _ => Go.post_bind' fun _ h1 =>
        Go.post_bind' fun _ h2 => Go.post_bind' fun _ h3 => fun _ _ =>
          dimMul h3 (same h1 (d2 _ rfl)) (same h2 db)
    | m rows => exact Go.post_bind' fun _ _ => Go.post_bind' fun _ _ => Go.post_bind' fun _ h1 =>
        Go.post_bind' fun _ h2 => Go.post_bind' fun _ h3 => fun _ _ =>
          dimMul h3 (same h1 (d3 _ rfl)) (same h2 db)
    | p rows => exact Go.post_bind' fun _ _ => Go.post_bind' fun _ _ => Go.post_bind' fun _ h1 =>
        Go.post_bind' fun _ h2 => Go.post_bind' fun _ h3 => fun _ _ =>
          dimMul h3 (same h1 (d4 _ rfl)) (same h2 db)

end Structure

section Value
variable {R : Type} [Field R] [LinearOrder R] {a b e : Expr R} {s : Scalar R}
  {D D1 D2 D3 : Set (ℕ →₀ ℕ)}

private theorem val {x : Go (Expr R)} {f : ℕ → ℕ → MvPolynomial ℕ R}
    {M : Matrix (Fin r) (Fin c) (MvPolynomial ℕ R)}
    (h : Go.Post x (EArr r c fun i j => GoodDen (fun _ => True) D (f i j)))
    (hf : ∀ (i : Fin r) (j : Fin c), f i j = M i j) (he : x = .ok e) :
    e.Canon ∧ e.TermsIn D ∧ e.Denotes M := by
  refine eden_spec (P := fun _ => True) ((h e he).mono fun i j a hi hj ha => ?_)
  rw [extM_of M hi hj, ← hf ⟨i, hi⟩ ⟨j, hj⟩]
  exact ha

private theorem negOne_den : GoodDen (fun _ => True) ∅ (-1 : MvPolynomial ℕ R) (.k negOne) :=
  ⟨trivial, by rw [Scalar.den_k]; unfold negOne; simp⟩

variable {M N : Matrix (Fin r) (Fin c) (MvPolynomial ℕ R)}

/-- C54, partial (rearrangement-free terms): whatever `Plus` returns is the sum. -/
theorem plus_sound_partial (hD : RearrFree D) (hr : 0 < r) (hc : 0 < c)
    (ha : a.Canon) (ta : a.TermsIn D) (da : a.Denotes M)
    (hb : b.Canon) (tb : b.TermsIn D) (db : b.Denotes N) (he : a.plus b = .ok e) :
    e.Canon ∧ e.TermsIn D ∧ e.Denotes (M + N) :=
  val (Expr.plus_post (addSem_den hD) hr hc (eden_of ha ta da) (eden_of hb tb db))
    (fun i j => by simp [extM_fin]) he

/-- C54, partial: whatever `Minus` returns is the difference. -/
theorem minus_sound_partial (hD : RearrFree D) (hr : 0 < r) (hc : 0 < c)
    (ha : a.Canon) (ta : a.TermsIn D) (da : a.Denotes M)
    (hb : b.Canon) (tb : b.TermsIn D) (db : b.Denotes N) (he : a.minus b = .ok e) :
    e.Canon ∧ e.TermsIn D ∧ e.Denotes (M - N) :=
  val (Expr.minus_post (mulSem_den (prodIn_const D) hD) negOne_den hr hc (eden_of ha ta da)
    (eden_of hb tb db)) (fun i j => by simp [extM_fin, sub_eq_add_neg]) he

/-- C54, partial: whatever `Multiply` returns is the matrix product. -/
theorem mul_sound_partial (hp : ProdIn D1 D2 D3) (hD : RearrFree D3) (hr : 0 < r) (hn : 0 < n)
    (hc : 0 < c) {M : Matrix (Fin r) (Fin n) (MvPolynomial ℕ R)}
    {N : Matrix (Fin n) (Fin c) (MvPolynomial ℕ R)}
    (ha : a.Canon) (ta : a.TermsIn D1) (da : a.Denotes M)
    (hb : b.Canon) (tb : b.TermsIn D2) (db : b.Denotes N) (he : a.mul b = .ok e) :
    e.Canon ∧ e.TermsIn D3 ∧ e.Denotes (M * N) := by
  refine val (Expr.mul_post (mulSem_den hp hD) (mulSem_den hp.symm hD) hr hn hc (eden_of ha ta da)
    (eden_of hb tb db)) (fun i j => ?_) he
  rw [psumG_sum]
  rw [Matrix.mul_apply, Finset.sum_range]
  exact Finset.sum_congr rfl fun k _ => by rw [extM_fin, extM_fin]

/-- C54, partial: a scalar on the right is added to, subtracted from or multiplied with every entry. -/
theorem scalar_right_sound_partial (hp : ProdIn D1 D2 D3) (hD : RearrFree D3) (hr : 0 < r) (hc : 0 < c)
    (ha : a.Canon) (ta : a.TermsIn D1) (da : a.Denotes M) (hs : s.Canon) (ts : s.TermsIn D2) :
    (∀ e, a.plus (.s s) = .ok e →
      e.Canon ∧ e.TermsIn D3 ∧ e.Denotes (Matrix.of fun i j => M i j + s.den)) ∧
    (∀ e, a.minus (.s s) = .ok e →
      e.Canon ∧ e.TermsIn D3 ∧ e.Denotes (Matrix.of fun i j => M i j - s.den)) ∧
    ∀ e, a.mul (.s s) = .ok e →
      e.Canon ∧ e.TermsIn D3 ∧ e.Denotes (Matrix.of fun i j => M i j * s.den) := by
  have h1 : EArr r c (fun i j => GoodDen (fun _ => True) D1 (extM M i j)) a := eden_of ha ta da
  have h2 : GoodDen (fun _ => True) D2 s.den s := ⟨good_of hs ts, rfl⟩
  have h1' := h1.mono (Q2 := fun i j => GoodDen (fun _ => True) D3 (extM M i j))
    fun _ _ _ _ _ h => ⟨h.1.weaken (fun _ h => h) hp.left, h.2⟩
  have h2' : GoodDen (fun _ => True) D3 s.den s := ⟨h2.1.weaken (fun _ h => h) hp.right, rfl⟩
  refine ⟨fun e he => ?_, fun e he => ?_, fun e he => ?_⟩
  · exact val (Expr.plus_scalar_post (addSem_den hD) hr hc h1' h2')
      (fun i j => by simp [extM_fin]) he
  · exact val (Expr.minus_scalar_post (mulSem_den (prodIn_const D3) hD) negOne_den hr hc h1' h2')
      (fun i j => by simp [extM_fin, sub_eq_add_neg]) he
  · exact val (Expr.mul_scalar_post (mulSem_den hp hD) hr hc h1 h2)
      (fun i j => by simp [extM_fin]) he

/-- C54, partial: a scalar on the left. -/
theorem scalar_left_sound_partial (hp : ProdIn D1 D2 D3) (hD : RearrFree D3) (hr : 0 < r) (hc : 0 < c)
    (hs : s.Canon) (ts : s.TermsIn D1) (hb : b.Canon) (tb : b.TermsIn D2) (db : b.Denotes N) :
    (∀ e, (Expr.s s).plus b = .ok e →
      e.Canon ∧ e.TermsIn D3 ∧ e.Denotes (Matrix.of fun i j => s.den + N i j)) ∧
    (∀ e, (Expr.s s).minus b = .ok e →
      e.Canon ∧ e.TermsIn D3 ∧ e.Denotes (Matrix.of fun i j => s.den - N i j)) ∧
    ∀ e, (Expr.s s).mul b = .ok e →
      e.Canon ∧ e.TermsIn D3 ∧ e.Denotes (Matrix.of fun i j => s.den * N i j) := by
  have h1 : EArr r c (fun i j => GoodDen (fun _ => True) D2 (extM N i j)) b := eden_of hb tb db
  have h2 : GoodDen (fun _ => True) D1 s.den s := ⟨good_of hs ts, rfl⟩
  have h1' := h1.mono (Q2 := fun i j => GoodDen (fun _ => True) D3 (extM N i j))
    fun _ _ _ _ _ h => ⟨h.1.weaken (fun _ h => h) hp.right, h.2⟩
  have h2' : GoodDen (fun _ => True) D3 s.den s := ⟨h2.1.weaken (fun _ h => h) hp.left, rfl⟩
  refine ⟨fun e he => ?_, fun e he => ?_, fun e he => ?_⟩
  · exact val (Expr.scalar_plus_post (addSem_den hD) hr hc h2' h1')
      (fun i j => by simp [extM_fin]) he
  · exact val (Expr.scalar_minus_post (mulSem_den (prodIn_const D3) hD) negOne_den hr hc h2' h1')
      (fun i j => by simp [extM_fin, sub_eq_add_neg]) he
  · exact val (Expr.scalar_mul_post (mulSem_den hp hD) (mulSem_den hp.symm hD) hr hc h2 h1)
      (fun i j => by simp [extM_fin]) he

/-- C54 for entries of degree at most two (sums) and affine entries (products): no condition on the
terms is left. -/
theorem sound_low_degree (hr : 0 < r) (hc : 0 < c) (ha : a.Canon) (ta : a.TermsIn (degLE 2))
    (da : a.Denotes M) (hb : b.Canon) (tb : b.TermsIn (degLE 2)) (db : b.Denotes N) :
    (∀ e, a.plus b = .ok e → e.Canon ∧ e.TermsIn (degLE 2) ∧ e.Denotes (M + N)) ∧
    ∀ e, a.minus b = .ok e → e.Canon ∧ e.TermsIn (degLE 2) ∧ e.Denotes (M - N) :=
  ⟨fun _ => plus_sound_partial rearrFree_degLE_two hr hc ha ta da hb tb db,
    fun _ => minus_sound_partial rearrFree_degLE_two hr hc ha ta da hb tb db⟩

theorem mul_sound_affine (hr : 0 < r) (hn : 0 < n) (hc : 0 < c)
    {M : Matrix (Fin r) (Fin n) (MvPolynomial ℕ R)} {N : Matrix (Fin n) (Fin c) (MvPolynomial ℕ R)}
    (ha : a.Canon) (ta : a.TermsIn (degLE 1)) (da : a.Denotes M)
    (hb : b.Canon) (tb : b.TermsIn (degLE 1)) (db : b.Denotes N) (he : a.mul b = .ok e) :
    e.Canon ∧ e.TermsIn (degLE 2) ∧ e.Denotes (M * N) :=
  mul_sound_partial (prodIn_degLE 1 1) rearrFree_degLE_two hr hn hc ha ta da hb tb db he

end Value

/-! ## Examples -/

private theorem returns {x : Go (Expr ℚ)} (h : x.isOk = true) : ∃ e, x = .ok e := by
  cases x with
  | ok e => exact ⟨e, rfl⟩
  | error e => cases h

/-- Monomials times variables with two rows, the case where the code may panic. -/
example : ∃ (e : Expr ℚ) (M : Matrix (Fin 2) (Fin 2) (MvPolynomial ℕ ℚ)), (Expr.m wMm).Denotes M ∧ (Expr.m wMm).mul (.v wVv) = .ok e ∧
    e.Denotes (M * !![(X 0 : MvPolynomial ℕ ℚ); X 1]) := by
  obtain ⟨e, he⟩ := returns (x := (Expr.m wMm).mul (.v wVv)) (by decide +kernel)
  obtain ⟨M, hM⟩ := Expr.Shape.exists_denotes (e := .m wMm) (r := 2) (c := 2) (by decide)
  exact ⟨e, M, hM, he, (mul_sound_affine (by decide) (by decide) (by decide)
    (Expr.okDeg_canon 1 (by decide +kernel)) (Expr.okDeg_terms (by decide +kernel)) hM
    (Expr.okDeg_canon 1 (by decide +kernel)) (Expr.okDeg_terms (by decide +kernel)) wVv_denotes he).2.2⟩

example : ∃ e, (Expr.m wMk).minus (.m wMv) = .ok e ∧
    e.Denotes (!![(C 1 : MvPolynomial ℕ ℚ), C 2; C 3, C 4] - !![X 0, X 1; X 1, X 2]) := by
  obtain ⟨e, he⟩ := returns (x := (Expr.m wMk).minus (.m wMv)) (by decide +kernel)
  exact ⟨e, he, ((sound_low_degree (by decide) (by decide)
    (Expr.okDeg_canon 2 (by decide +kernel)) (Expr.okDeg_terms (by decide +kernel)) wMk_denotes
    (Expr.okDeg_canon 2 (by decide +kernel)) (Expr.okDeg_terms (by decide +kernel)) wMv_denotes).2
    e he).2.2⟩

example : ∃ e, (Expr.m wMp).plus (.s (.mono (wm1 3 0 1))) = .ok e ∧ e.Shape 2 2 ∧ e.Canon := by
  obtain ⟨e, he⟩ := returns (x := (Expr.m wMp).plus (.s (.mono (wm1 3 0 1)))) (by decide +kernel)
  have h := scalar_right_sound_struct (r := 2) (c := 2) (by decide) (by decide)
    (Expr.okDeg_canon 1 (by decide +kernel)) (by decide)
    (Scalar.okDeg_spec (n := 1) (by decide +kernel)).1 (Or.inl he)
  exact ⟨e, he, h.1, h.2.1⟩

example : ∃ e, (Expr.s (.poly ⟨[wm1 1 0 1, wm0 5]⟩)).mul (.m wMk) = .ok e ∧
    e.Denotes (Matrix.of fun i j => (Scalar.poly ⟨[wm1 1 0 1, wm0 5]⟩).den *
      !![(C 1 : MvPolynomial ℕ ℚ), C 2; C 3, C 4] i j) := by
  obtain ⟨e, he⟩ := returns (x := (Expr.s (.poly ⟨[wm1 1 0 1, wm0 5]⟩)).mul (.m wMk)) (by decide +kernel)
  have hs := Scalar.okDeg_spec (n := 1) (s := .poly ⟨[wm1 1 0 1, wm0 5]⟩) (by decide +kernel)
  exact ⟨e, he, ((scalar_left_sound_partial (prodIn_degLE 1 1) rearrFree_degLE_two (by decide)
    (by decide) hs.1 hs.2 (Expr.okDeg_canon 1 (by decide +kernel))
    (Expr.okDeg_terms (by decide +kernel)) wMk_denotes).2.2 e he).2.2⟩

end Verif
