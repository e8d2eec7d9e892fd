import Verif.Props.ArrayDeriv
import Verif.Props.Program
import Verif.Props.Sound
import Verif.Props.VecPower

/-!
# C63: no silent wrong results in programs over vectors and matrices

The arithmetic of vectors and matrices rejects many pairs of kinds, so a program may stop.  Here a
caller makes any number of calls on scalars, vectors and matrices, each on the results of earlier
ones, and every call returns.  Then the last result is the matrix of polynomials that the calls
stand for.
-/

set_option linter.unusedSectionVars false

namespace Verif

open MvPolynomial

/-- A set of exponent vectors in which no term is a rearrangement of another. -/
structure TermRoom (D : Set (ℕ →₀ ℕ)) : Prop where
  free : RearrFree D
  zero : (0 : ℕ →₀ ℕ) ∈ D

theorem Node.room {D : Set (ℕ →₀ ℕ)} (h : Node D) : TermRoom D := ⟨h.free, h.zero⟩

theorem termRoom_degLE {n : ℕ} (h : n ≤ 2) : TermRoom (degLE n) := (node_degLE h).room

theorem termRoom_univ1 (x : ℕ) : TermRoom (univ1 x) := (node_univ1 x).room

variable {R : Type} [Field R] [LinearOrder R]

/-- `Computes U D M e`: the expression `e` was obtained by calls on variables with `U` only, its terms
are among `D`, and `M` is the matrix those calls stand for.  One rule per call; the equation of each
rule is the call.  The matrices are computed from the matrices of the operands by textbook
operations, never from the operands themselves. -/
inductive Computes (U : Var R → Prop) : {r c : ℕ} → Set (ℕ →₀ ℕ) →
    Matrix (Fin r) (Fin c) (MvPolynomial ℕ R) → Expr R → Prop
  /-- A number `K(d)`. -/
  | k {D d} (h : TermRoom D) : Computes U D (Matrix.of fun (_ _ : Fin 1) => C d) (.s (.k d))
  /-- A variable. -/
  | var {D v} (h : TermRoom D) (hv : U v) (hD : Finsupp.single v.id 1 ∈ D) :
      Computes U D (Matrix.of fun (_ _ : Fin 1) => X v.id) (.s (.var v))
  /-- A scalar obtained by a program as in C62. -/
  | prog {D} {p : Prog R} {e} (h : p.Fits D) (hn : ∀ v, p.Names v → U v) (hk : p.Keys) (he : p.run = .ok e) :
      Computes U D (Matrix.of fun (_ _ : Fin 1) => p.meaning) (.s e)
  /-- A vector of numbers. -/
  | kvec {D r} {f : Fin r → R} (h : TermRoom D) (hr : 0 < r) :
      Computes U D (Matrix.of fun i (_ : Fin 1) => C (f i)) (.v (.k (List.ofFn f)))
  /-- A vector of variables. -/
  | vvec {D r} {f : Fin r → Var R} (h : TermRoom D) (hr : 0 < r) (hf : ∀ i, U (f i))
      (hD : ∀ i, Finsupp.single (f i).id 1 ∈ D) :
      Computes U D (Matrix.of fun i (_ : Fin 1) => X (f i).id) (.v (.v (List.ofFn f)))
  /-- A matrix of numbers. -/
  | kmat {D r c} {f : Fin r → Fin c → R} (h : TermRoom D) (hr : 0 < r) (hc : 0 < c) :
      Computes U D (Matrix.of fun i j => C (f i j)) (.m (.k (List.ofFn fun i => List.ofFn (f i))))
  /-- A matrix of variables. -/
  | vmat {D r c} {f : Fin r → Fin c → Var R} (h : TermRoom D) (hr : 0 < r) (hc : 0 < c)
      (hf : ∀ i j, U (f i j)) (hD : ∀ i j, Finsupp.single (f i j).id 1 ∈ D) :
      Computes U D (Matrix.of fun i j => X (f i j).id)
        (.m (.v (List.ofFn fun i => List.ofFn (f i))))
  /-- Allowing for more terms. -/
  | weaken {D D' r c} {M : Matrix (Fin r) (Fin c) _} {e} (h : TermRoom D') (ha : Computes U D M e)
      (hD : D ⊆ D') : Computes U D' M e
  /-- `Plus`. -/
  | plus {D r c} {M N : Matrix (Fin r) (Fin c) _} {a b e} (ha : Computes U D M a)
      (hb : Computes U D N b) (he : a.plus b = .ok e) : Computes U D (M + N) e
  /-- `Minus`. -/
  | minus {D r c} {M N : Matrix (Fin r) (Fin c) _} {a b e} (ha : Computes U D M a)
      (hb : Computes U D N b) (he : a.minus b = .ok e) : Computes U D (M - N) e
  /-- `Multiply`. -/
  | mul {A B D r n c} {M : Matrix (Fin r) (Fin n) _} {N : Matrix (Fin n) (Fin c) _} {a b e}
      (h : TermRoom D) (ha : Computes U A M a) (hb : Computes U B N b) (hD : ProdIn A B D)
      (he : a.mul b = .ok e) : Computes U D (M * N) e
  /-- `Plus` of a scalar on the right. -/
  | plusScalar {D r c} {M : Matrix (Fin r) (Fin c) _} {S : Matrix (Fin 1) (Fin 1) _} {a s e}
      (ha : Computes U D M a) (hs : Computes U D S (.s s)) (he : a.plus (.s s) = .ok e) :
      Computes U D (Matrix.of fun i j => M i j + S 0 0) e
  /-- `Minus` of a scalar on the right. -/
  | minusScalar {D r c} {M : Matrix (Fin r) (Fin c) _} {S : Matrix (Fin 1) (Fin 1) _} {a s e}
      (ha : Computes U D M a) (hs : Computes U D S (.s s)) (he : a.minus (.s s) = .ok e) :
      Computes U D (Matrix.of fun i j => M i j - S 0 0) e
  /-- `Multiply` by a scalar on the right. -/
  | mulScalar {A B D r c} {M : Matrix (Fin r) (Fin c) _} {S : Matrix (Fin 1) (Fin 1) _} {a s e}
      (h : TermRoom D) (ha : Computes U A M a) (hs : Computes U B S (.s s)) (hD : ProdIn A B D)
      (he : a.mul (.s s) = .ok e) : Computes U D (Matrix.of fun i j => M i j * S 0 0) e
  /-- `Plus` on a scalar. -/
  | scalarPlus {D r c} {M : Matrix (Fin r) (Fin c) _} {S : Matrix (Fin 1) (Fin 1) _} {a s e}
      (hs : Computes U D S (.s s)) (ha : Computes U D M a) (he : (Expr.s s).plus a = .ok e) :
      Computes U D (Matrix.of fun i j => S 0 0 + M i j) e
  /-- `Minus` on a scalar. -/
  | scalarMinus {D r c} {M : Matrix (Fin r) (Fin c) _} {S : Matrix (Fin 1) (Fin 1) _} {a s e}
      (hs : Computes U D S (.s s)) (ha : Computes U D M a) (he : (Expr.s s).minus a = .ok e) :
      Computes U D (Matrix.of fun i j => S 0 0 - M i j) e
  /-- `Multiply` on a scalar. -/
  | scalarMul {A B D r c} {M : Matrix (Fin r) (Fin c) _} {S : Matrix (Fin 1) (Fin 1) _} {a s e}
      (h : TermRoom D) (hs : Computes U A S (.s s)) (ha : Computes U B M a) (hD : ProdIn A B D)
      (he : (Expr.s s).mul a = .ok e) : Computes U D (Matrix.of fun i j => S 0 0 * M i j) e
  /-- `Power` of a scalar. -/
  | scalarPow {A D} {S : Matrix (Fin 1) (Fin 1) _} {s e} {n : ℕ} (h : TermRoom D)
      (hs : Computes U A S (.s s)) (hD : {d | NSum A n d} ⊆ D) (he : s.power n = .ok e) :
      Computes U D (Matrix.of fun i j => S i j ^ n) (.s e)
  /-- `Power` of a vector, which must have one entry. -/
  | vecPow {A D} {S : Matrix (Fin 1) (Fin 1) _} {a e} {n : ℕ} (h : TermRoom D)
      (ha : Computes U A S (.v a)) (hD : {d | NSum A n d} ⊆ D) (he : a.power n = .ok e) :
      Computes U D (Matrix.of fun i j => S i j ^ n) (.s e)
  /-- `Power` of a matrix: the family `D` is for the powers on the way. -/
  | matPow {A r} {D : ℕ → Set (ℕ →₀ ℕ)} {M : Matrix (Fin r) (Fin r) _} {a e} {n : ℕ}
      (h : ∀ i ≤ n, TermRoom (D i)) (ha : Computes U A M (.m a))
      (hD : ∀ i < n, ProdIn (D i) A (D (i + 1))) (he : a.power n = .ok e) :
      Computes U (D n) (M ^ n) (.m e)
  /-- `Transpose`. -/
  | transpose {D r c} {M : Matrix (Fin r) (Fin c) _} {a e} (ha : Computes U D M a)
      (he : a.transpose = .ok e) : Computes U D M.transpose e
  /-- `AsSimplifiedExpression`. -/
  | simp {D r c} {M : Matrix (Fin r) (Fin c) _} {a e} (ha : Computes U D M a)
      (he : a.asSimplified = .ok e) : Computes U D M e
  /-- `At`. -/
  | at {D r c} {M : Matrix (Fin r) (Fin c) _} {a e} (ha : Computes U D M a) (i : Fin r) (j : Fin c)
      (he : a.at (i : ℕ) (j : ℕ) = .ok e) :
      Computes U D (Matrix.of fun (_ _ : Fin 1) => M i j) (.s e)
  /-- `HStack`: every row is the concatenation of the rows of the blocks. -/
  | hstack {D m r c} {cs : Fin (m + 1) → ℕ} {Ms : ∀ k, Matrix (Fin r) (Fin (cs k)) (MvPolynomial ℕ R)}
      {es : Fin (m + 1) → Expr R} {M : Matrix (Fin r) (Fin c) _} {e}
      (ha : ∀ k, Computes U D (Ms k) (es k))
      (hM : ∀ i, (List.ofFn fun j => M i j) = (List.ofFn fun k => List.ofFn fun j => Ms k i j).flatten)
      (he : hstack (List.ofFn es) = .ok e) : Computes U D M e
  /-- `VStack`: the rows are the rows of the blocks. -/
  | vstack {D m r c} {rs : Fin (m + 1) → ℕ} {Ms : ∀ k, Matrix (Fin (rs k)) (Fin c) (MvPolynomial ℕ R)}
      {es : Fin (m + 1) → Expr R} {M : Matrix (Fin r) (Fin c) _} {e}
      (ha : ∀ k, Computes U D (Ms k) (es k))
      (hM : (List.ofFn fun i => List.ofFn fun j => M i j) =
        (List.ofFn fun k => List.ofFn fun i => List.ofFn fun j => Ms k i j).flatten)
      (he : vstack (List.ofFn es) = .ok e) : Computes U D M e
  /-- `Substitute`. -/
  | subst {A B D r c} {M : Matrix (Fin r) (Fin c) _} {S : Matrix (Fin 1) (Fin 1) _} {a v s e}
      (h : TermRoom D) (ha : Computes U A M a) (hv : U v) (hs : Computes U B S (.s s))
      (hD : ∀ d ∈ A, SubstTerms (substTermsFor v B) d ⊆ D) (he : a.substitute v s = .ok e) :
      Computes U D (M.map (bind₁ fun i => if i = v.id then S 0 0 else X i)) e
  /-- `SubstituteAccordingTo` on a vector or matrix: the keys are distinct and no value names the key
  of another (`substMap_array_false`). -/
  | substMap {D r c n} {M : Matrix (Fin r) (Fin c) _} {a e} {key : Fin n → Var R} {val : Fin n → Scalar R}
      {S : Fin n → Matrix (Fin 1) (Fin 1) (MvPolynomial ℕ R)} {B : Fin n → Set (ℕ →₀ ℕ)}
      {φ : ℕ → MvPolynomial ℕ R}
      (ha : Computes U D M a) (hns : ∀ x, a ≠ .s x) (hk : ∀ j, U (key j))
      (hinj : Function.Injective key) (hs : ∀ j, Computes U (B j) (S j) (.s (val j)))
      (hind : ∀ j l, (val j).Mentions (key l) → l = j)
      (hD : ∀ j, ∀ d ∈ D, SubstTerms (substTermsFor (key j) (B j)) d ⊆ D)
      (hφ : ∀ j, φ (key j).id = S j 0 0) (hφ' : ∀ i, (∀ j, (key j).id ≠ i) → φ i = X i)
      (he : a.substMap (List.ofFn fun j => (key j, val j)) = .ok e) :
      Computes U D (M.map (bind₁ φ)) e
  /-- `DerivativeWrt` on anything but a `MonomialVector` (`derivative_monoVec_false`). -/
  | deriv {A D r c} {M : Matrix (Fin r) (Fin c) _} {a v e} (h : TermRoom D) (ha : Computes U A M a)
      (hv : U v) (hnm : ∀ l, a ≠ .v (.m l)) (hD : ∀ d, d + Finsupp.single v.id 1 ∈ A → d ∈ D)
      (he : a.derivative v = .ok e) : Computes U D (M.map (pderiv v.id)) e

/-! ## What is kept by the calls -/

section Steps

variable {U : Var R → Prop} {A B D : Set (ℕ →₀ ℕ)} {r n c : ℕ} {a b e : Expr R} {s : Scalar R}
  {M N : Matrix (Fin r) (Fin c) (MvPolynomial ℕ R)} {S : Matrix (Fin 1) (Fin 1) (MvPolynomial ℕ R)}

/-- The entries of `e` are those of `M`, with terms among `D` and variables with `U`. -/
def Holds (U : Var R → Prop) (D : Set (ℕ →₀ ℕ)) (M : Matrix (Fin r) (Fin c) (MvPolynomial ℕ R))
    (e : Expr R) : Prop := EArr r c (fun i j => GoodDen U D (extM M i j)) e

private theorem holds_of {x : Go (Expr R)} {f : ℕ → ℕ → MvPolynomial ℕ R}
    (h : Go.Post x (EArr r c fun i j => GoodDen U D (f i j)))
    (hf : ∀ (i : Fin r) (j : Fin c), f i j = M i j) (he : x = .ok e) : Holds U D M e :=
  (h e he).mono fun i j a hi hj ha => by
    rw [extM_of M hi hj, ← hf ⟨i, hi⟩ ⟨j, hj⟩]
    exact ha

private theorem holds_s : Holds U D S (.s s) ↔ GoodDen U D (S 0 0) s := by
  unfold Holds
  rw [earr_s_iff]
  rfl

private theorem Holds.weaken (h : Holds U A M e) (hD : A ⊆ D) : Holds U D M e :=
  h.mono fun _ _ _ _ _ h => ⟨h.1.weaken (fun _ h => h) hD, h.2⟩

private theorem holds_negOne : GoodDen U ∅ (-1 : MvPolynomial ℕ R) (.k negOne) :=
  ⟨trivial, by rw [Scalar.den_k]; unfold negOne; simp⟩

private theorem Holds.all (h : Holds U D M e) : e.All (Good U D) :=
  EArr.all h fun _ _ _ h => h.1

private theorem Holds.canon (h : Holds U D M e) : e.Canon := (eden_spec h).1

private theorem Holds.denotes (h : Holds U D M e) : e.Denotes M := (eden_spec h).2.2

private theorem holds_mk (h : e.All (Good U D)) (hM : e.Denotes M) : Holds U D M e :=
  ((denotes_iff.mp hM).and_all h).mono fun _ _ _ _ _ h => ⟨h.2, h.1⟩

private theorem holds_mul {M : Matrix (Fin r) (Fin n) (MvPolynomial ℕ R)}
    {N : Matrix (Fin n) (Fin c) (MvPolynomial ℕ R)} (hD : RearrFree D) (hp : ProdIn A B D)
    (hr : 0 < r) (hn : 0 < n) (hc : 0 < c) (ha : Holds U A M a) (hb : Holds U B N b)
    (he : a.mul b = .ok e) : Holds U D (M * N) e := by
  refine holds_of (Expr.mul_post (mulSem_den hp hD) (mulSem_den hp.symm hD) hr hn hc ha hb)
    (fun i j => ?_) he
  rw [psumG_sum]
  rw [Matrix.mul_apply, Finset.sum_range]
  exact Finset.sum_congr rfl fun k _ => by rw [extM_fin, extM_fin]

private theorem holds_matPow {D : ℕ → Set (ℕ →₀ ℕ)} {M : Matrix (Fin r) (Fin r) (MvPolynomial ℕ R)}
    {a m : Mat R} {n : ℕ} (hr : 0 < r) (h : ∀ i ≤ n, TermRoom (D i)) (ha : Holds U A M (.m a))
    (hD : ∀ i < n, ProdIn (D i) A (D (i + 1))) (he : a.power n = .ok m) :
    Holds U (D n) (M ^ n) (.m m) := by
  have hone : MArr r r (fun i j x => GoodDen U (D 0)
      (extM (1 : Matrix (Fin r) (Fin r) (MvPolynomial ℕ R)) i j) x) (.k (identityRows r)) := by
    refine Arr.map_iff.mpr ?_
    unfold identityRows
    refine (LArr.range r).map fun i i' hi hi' => (LArr.range r).map fun j j' hj hj' => ?_
    subst hi' hj'
    refine ⟨trivial, ?_⟩
    rw [extM_of _ hi hj, Scalar.den_k, Matrix.one_apply]
    by_cases h : i' = j'
    · subst h
      rw [if_pos rfl, if_pos rfl]
      exact C_1
    · rw [if_neg h, if_neg (by simpa using h)]
      exact C_0
  unfold Mat.power at he
  obtain ⟨-, -, he⟩ := Go.bind_eq_ok.mp he
  obtain ⟨d, hd, he⟩ := Go.bind_eq_ok.mp he
  have hd' := MArr.dims (earr_m_iff.mp ha) hr fun _ _ _ h => goodDen_check h
  rw [hd', Except.ok.injEq] at hd
  subst hd
  rw [if_neg (by simp), if_neg (by omega), if_neg (by omega)] at he
  obtain ⟨e0, h0, h1, m0, rfl⟩ := kmPlus_k_ok (c := r) hr hr hone GoNum.zero
    (Q := fun i j x => GoodDen U (D 0)
      (extM (1 : Matrix (Fin r) (Fin r) (MvPolynomial ℕ R)) i j) x) (by
      intro i j x _ _ hx
      refine ⟨trivial, ?_⟩
      rw [← hx.2, Scalar.den_k, Scalar.den_k]
      congr 1
      show (0 : R) * 1 + x = x
      ring)
  rw [h0] at he
  simp only [Go.pure_eq, Go.ok_bind, Int.toNat_natCast] at he
  refine LArr.foldlM_post (n := n) (I := fun i acc => Holds U (D i) (M ^ i) (.m acc)) (LArr.range n)
    (by rw [pow_zero]; exact h1) (fun i acc j hi hacc _ => ?_) m he
  refine Go.post_bind' fun x hx => ?_
  have h2 : Holds U (D (i + 1)) (M ^ i * M) x :=
    holds_mul (h (i + 1) hi).free (hD i hi) hr hr hr hacc ha hx
  rw [← pow_succ] at h2
  cases x with
  | m x => exact Go.post_pure h2
  | s x => exact Go.post_throw
  | v x => exact Go.post_throw

private theorem concretizeM_all {g : List (List (Scalar R))} (hr : g.length = r) (hr0 : 0 < r)
    (hrow : ∀ row ∈ g, row.length = c) (hc0 : 0 < c) (hg : ∀ row ∈ g, ∀ a ∈ row, Good U D a)
    (he : concretizeM g = .ok e) : e.All (Good U D) := by
  have h : Arr r c (fun _ _ => Good U D) g := ⟨hr, fun i row hi =>
    ⟨hrow row (List.mem_of_getElem? hi), fun j a hj =>
      hg row (List.mem_of_getElem? hi) a (List.mem_of_getElem? hj)⟩⟩
  obtain ⟨e', h1, h2, -⟩ := concretizeM_conv h hr0 hc0 (fun _ _ _ _ => stable_good.toConv)
    fun _ _ _ _ _ h => h.check
  rw [he, Except.ok.injEq] at h1
  subst h1
  exact h2.all fun _ _ _ h => h

private theorem holds_hstack {m : ℕ} {cs : Fin (m + 1) → ℕ}
    {Ms : ∀ k, Matrix (Fin r) (Fin (cs k)) (MvPolynomial ℕ R)} {es : Fin (m + 1) → Expr R} (hr : 0 < r)
    (hc : ∀ k, 0 < cs k) (ha : ∀ k, Holds U D (Ms k) (es k))
    (hM : ∀ i, (List.ofFn fun j => M i j) = (List.ofFn fun k => List.ofFn fun j => Ms k i j).flatten)
    (he : hstack (List.ofFn es) = .ok e) : 0 < c ∧ Holds U D M e := by
  have hne : List.ofFn es ≠ [] := by simp
  have hall : ∀ e ∈ List.ofFn es, e.Canon ∧ ∃ c, 0 < c ∧ e.Shape r c := by
    intro e he
    obtain ⟨k, rfl⟩ := (List.mem_ofFn' _ _).mp he
    exact ⟨(ha k).canon, cs k, hc k, EArr.shape (ha k)⟩
  obtain ⟨e', h1, h2, -, h4⟩ := hstack_blocks hne hr hall
  rw [he, Except.ok.injEq] at h1
  subst h1
  have hrow : ∀ i : Fin r, e.denGrid[(i : ℕ)]? = some (List.ofFn fun j => M i j) := by
    intro i
    rw [h4 i i.2, hM, List.map_ofFn]
    congr 3
    funext k
    have h5 : (es k).denGrid = _ := (ha k).denotes
    simp [h5]
  have hlen : e.denGrid.length = r := by
    unfold Expr.denGrid
    rw [List.length_map]
    exact h2.1
  have hd : e.Denotes M := by
    show e.denGrid = _
    refine List.ext_getElem? fun i => ?_
    by_cases hi : i < r
    · rw [hrow ⟨i, hi⟩]
      simp [hi]
    · rw [List.getElem?_eq_none (by omega), List.getElem?_eq_none (by simpa using hi)]
  have hcs : 0 < c := by
    have := congrArg List.length (hM ⟨0, hr⟩)
    rw [List.length_ofFn, List.length_flatten, List.map_ofFn, List.sum_ofFn] at this
    rw [this]
    refine Finset.sum_pos (fun k _ => ?_) ⟨0, Finset.mem_univ _⟩
    simp [hc k]
  refine ⟨hcs, holds_mk ?_ hd⟩
  rw [hstack_eq hne hr hall] at he
  have hsum : 0 < ((List.ofFn es).map Expr.width).sum := by
    rw [List.map_ofFn, List.sum_ofFn]
    refine Finset.sum_pos (fun k _ => ?_) ⟨0, Finset.mem_univ _⟩
    show 0 < (es k).width
    rw [(EArr.shape (ha k)).width hr]
    exact hc k
  refine concretizeM_all (r := r) (c := ((List.ofFn es).map Expr.width).sum) (by simp) hr ?_ hsum ?_ he
  · intro row hrow
    obtain ⟨i, hi, rfl⟩ := List.mem_map.mp hrow
    rw [List.length_flatten, List.map_map]
    congr 1
    refine List.map_congr_left fun e he => ?_
    obtain ⟨-, c', -, h9⟩ := hall e he
    have hi' : i < e.grid.length := by rw [h9.1]; exact List.mem_range.mp hi
    show (e.grid[i]?.getD []).length = _
    rw [h9.width hr, List.getElem?_eq_getElem hi', Option.getD_some]
    exact h9.2 _ (List.getElem_mem _)
  · intro row hrow x hx
    obtain ⟨i, hi, rfl⟩ := List.mem_map.mp hrow
    obtain ⟨row', h5, h6⟩ := List.mem_flatten.mp hx
    obtain ⟨b, h7, rfl⟩ := List.mem_map.mp h5
    obtain ⟨-, c', -, h9⟩ := hall b h7
    obtain ⟨k, rfl⟩ := (List.mem_ofFn' _ _).mp h7
    rw [List.getElem?_eq_getElem (by rw [h9.1]; exact List.mem_range.mp hi), Option.getD_some] at h6
    exact (ha k).all _ (List.getElem_mem _) x h6

private theorem holds_vstack {m : ℕ} {rs : Fin (m + 1) → ℕ}
    {Ms : ∀ k, Matrix (Fin (rs k)) (Fin c) (MvPolynomial ℕ R)} {es : Fin (m + 1) → Expr R} (hc : 0 < c)
    (hr : ∀ k, 0 < rs k) (ha : ∀ k, Holds U D (Ms k) (es k))
    (hM : (List.ofFn fun i => List.ofFn fun j => M i j) =
        (List.ofFn fun k => List.ofFn fun i => List.ofFn fun j => Ms k i j).flatten)
    (he : vstack (List.ofFn es) = .ok e) : 0 < r ∧ Holds U D M e := by
  have hne : List.ofFn es ≠ [] := by simp
  have hall : ∀ e ∈ List.ofFn es, e.Canon ∧ ∃ r, 0 < r ∧ e.Shape r c := by
    intro e he
    obtain ⟨k, rfl⟩ := (List.mem_ofFn' _ _).mp he
    exact ⟨(ha k).canon, rs k, hr k, EArr.shape (ha k)⟩
  obtain ⟨e', h1, h2, -, h4⟩ := vstack_blocks hne hc hall
  rw [he, Except.ok.injEq] at h1
  subst h1
  have hd : e.Denotes M := by
    show e.denGrid = _
    rw [h4, hM, List.map_ofFn]
    congr 2
    funext k
    exact (ha k).denotes
  have hrs : 0 < r := by
    have := congrArg List.length hM
    rw [List.length_ofFn, List.length_flatten, List.map_ofFn, List.sum_ofFn] at this
    rw [this]
    refine Finset.sum_pos (fun k _ => ?_) ⟨0, Finset.mem_univ _⟩
    simp [hr k]
  refine ⟨hrs, holds_mk ?_ hd⟩
  rw [vstack_eq hne hc hall] at he
  have hlen : ((List.ofFn es).map Expr.grid).flatten.length = e.grid.length := by
    rw [List.length_flatten, List.map_map, h2.1]
    rfl
  have hel : e.grid.length = r := by
    have : e.denGrid.length = r := by rw [show e.denGrid = _ from hd]; simp
    unfold Expr.denGrid at this
    rwa [List.length_map] at this
  refine concretizeM_all (r := r) (c := c) (hlen.trans hel) hrs ?_ hc ?_ he
  · intro row hrow
    obtain ⟨g, h5, h6⟩ := List.mem_flatten.mp hrow
    obtain ⟨b, h7, rfl⟩ := List.mem_map.mp h5
    obtain ⟨-, r', -, h9⟩ := hall b h7
    exact h9.2 row h6
  · intro row hrow x hx
    obtain ⟨g, h5, h6⟩ := List.mem_flatten.mp hrow
    obtain ⟨b, h7, rfl⟩ := List.mem_map.mp h5
    obtain ⟨k, rfl⟩ := (List.mem_ofFn' _ _).mp h7
    exact (ha k).all row h6 x hx

private theorem scalar_deriv {f : MvPolynomial ℕ R} {v : Var R} (hv : v.OK)
    (hD : ∀ d, d + Finsupp.single v.id 1 ∈ A → d ∈ D) (hs : GoodDen U A f s) :
    Go.Ok (s.derivative v) (GoodDen U D (pderiv v.id f)) := by
  obtain ⟨g1, g2, g3⟩ := good_iff.mp hs.1
  obtain ⟨y, h1, h2, h3⟩ := derivative_denotes_pderiv g1 hv
  obtain ⟨y', h1', -, h4⟩ := derivative_total g1 hv
  obtain rfl : y = y' := by rw [h1] at h1'; cases h1'; rfl
  have h5 := derivative_neat g1 g2 hv hD h1
  exact ⟨y, h1, good_mentions h2 h5.1 fun w hw => g3 w (h4 w hw), by rw [h3, hs.2]⟩

private theorem derivPoly_post {f : MvPolynomial ℕ R} {v : Var R} {p : Poly R} (hv : v.OK)
    (hD : ∀ d, d + Finsupp.single v.id 1 ∈ A → d ∈ D) (hs : GoodDen U A f (.poly p)) :
    Go.Post (p.derivPoly v) (fun q => GoodDen U D (pderiv v.id f) (.poly q)) := by
  intro q hq
  obtain ⟨y, h1, h2⟩ := scalar_deriv hv hD hs
  have h1' : p.derivative v = .ok y := h1
  unfold Poly.derivPoly at hq
  rw [h1', Go.ok_bind] at hq
  cases y with
  | poly x => cases hq; exact h2
  | k x => cases hq
  | var x => cases hq
  | mono x => cases hq

private theorem holds_deriv (hDr : RearrFree D) {v : Var R} (hr : 0 < r) (hc : 0 < c)
    (ha : Holds U A M a) (hv : v.OK) (hnm : ∀ l, a ≠ .v (.m l))
    (hD : ∀ d, d + Finsupp.single v.id 1 ∈ A → d ∈ D) (he : a.derivative v = .ok e) :
    Holds U D (M.map (pderiv v.id)) e := by
  have hfin : EArr r c (fun i j => GoodDen U D (pderiv v.id (extM M i j))) e →
      Holds U D (M.map (pderiv v.id)) e := fun h => h.mono fun i j x hi hj hx => by
    rw [extM_of _ hi hj] at hx ⊢
    exact hx
  apply hfin
  have hdir : a.DerivDirect → EArr r c (fun i j => GoodDen U D (pderiv v.id (extM M i j))) e := by
    intro hd
    obtain ⟨e', h1, h2, -⟩ := Expr.derivative_ok (v := v)
      (Q' := fun i j => GoodDen U D (pderiv v.id (extM M i j))) hr hc hd ha
      (fun _ _ _ h => goodDen_check h) hv.check (fun _ _ _ _ => (stable_goodDen hDr _).toConv)
      (fun i j x _ _ hx => scalar_deriv hv hD hx)
    rw [he, Except.ok.injEq] at h1
    exact h1 ▸ h2
  match a, hdir, hnm, ha, he with
  | .s x, hdir, _, _, _ => exact hdir trivial
  | .v (.k l), hdir, _, _, _ => exact hdir trivial
  | .v (.v l), hdir, _, _, _ => exact hdir trivial
  | .v (.m l), _, hnm, _, _ => exact absurd rfl (hnm l)
  | .v (.p l), _, _, ha, he =>
    obtain rfl : c = 1 := earr_v_cols hr ha
    refine (show Go.Post ((Expr.v (.p l)).derivative v) _ from ?_) e he
    refine Go.post_bind' fun b hb => Go.post_pure (earr_v_iff.mpr ?_)
    revert b
    show Go.Post (Vec.derivative (.p l) v) _
    unfold Vec.derivative
    refine Go.Post.bind (LArr.mapM_post (Q' := fun i q => GoodDen U D (pderiv v.id (extM M i 0)) (.poly q))
      (LArr.map_iff.mp (earr_v_iff.mp ha)) fun i p _ hp => derivPoly_post hv hD hp)
      fun q hq => Go.post_pure (LArr.map_iff.mpr hq)
  | .m (.k l), hdir, _, _, _ => exact hdir trivial
  | .m (.v l), hdir, _, _, _ => exact hdir trivial
  | .m (.m l), hdir, _, _, _ => exact hdir trivial
  | .m (.p l), _, _, ha, he =>
    refine (show Go.Post ((Expr.m (.p l)).derivative v) _ from ?_) e he
    refine Go.post_bind' fun b hb => Go.post_pure (earr_m_iff.mpr ?_)
    revert b
    show Go.Post (Mat.derivative (.p l) v) _
    unfold Mat.derivative
    refine Go.post_bind' fun _ _ => Go.post_bind' fun _ _ => ?_
    refine Go.Post.bind (Arr.mapM_post (Q' := fun i j q => GoodDen U D (pderiv v.id (extM M i j)) (.poly q))
      (Arr.map_iff.mp (earr_m_iff.mp ha)) fun i j p _ _ hp => derivPoly_post hv hD hp)
      fun q hq => Go.post_pure (Arr.map_iff.mpr hq)

private theorem holds_subst (hDr : RearrFree D) (h0 : (0 : ℕ →₀ ℕ) ∈ A) {v : Var R} (hr : 0 < r)
    (ha : Holds U A M a) (hU : ∀ w, U w → w.id = v.id → w.env = v.env) (hv : v.OK)
    (hs : GoodDen U B (S 0 0) s) (hD : ∀ d ∈ A, SubstTerms (substTermsFor v B) d ⊆ D)
    (he : a.substitute v s = .ok e) :
    Holds U D (M.map (bind₁ fun i => if i = v.id then S 0 0 else X i)) e := by
  obtain ⟨s1, s2, s3⟩ := good_iff.mp hs.1
  have hφ : substFor v s = fun i => if i = v.id then S 0 0 else X i := by
    unfold substFor
    rw [hs.2]
  obtain ⟨e', h1, h2, -⟩ := Expr.substitute_ok (v := v) (s := s)
    (Q' := fun i j => GoodDen U D (bind₁ (fun i => if i = v.id then S 0 0 else X i) (extM M i j))) hr ha
    (fun _ _ _ h => goodDen_check h) hv.check hs.1.check
    (fun _ _ _ _ => (stable_goodDen hDr _).toConv) (fun i j x _ _ hx => by
      obtain ⟨g1, g2, g3⟩ := good_iff.mp hx.1
      obtain ⟨y, h1, h2, h3, h4⟩ := substitute_denotes_bind_partial hDr g1 hv s1
        (fun w hw => hU w (g3 w hw)) s2 (fun d hd => hD d (hasTerm_in g1 g2 h0 hd))
      obtain ⟨y', h1', -, h5⟩ := substitute_total g1 hv s1
      obtain rfl : y = y' := by rw [h1] at h1'; cases h1'; rfl
      exact ⟨y, h1, good_mentions h2 h3 fun w hw => (h5 w hw).elim (g3 w) (s3 w),
        by rw [h4, hx.2, hφ]⟩)
  rw [he, Except.ok.injEq] at h1
  subst h1
  refine h2.mono fun i j x hi hj hx => ?_
  rw [extM_of _ hi hj] at hx ⊢
  exact hx

private theorem holds_substMap (hDr : TermRoom D) {n : ℕ} {key : Fin n → Var R} {val : Fin n → Scalar R}
    {S : Fin n → Matrix (Fin 1) (Fin 1) (MvPolynomial ℕ R)} {B : Fin n → Set (ℕ →₀ ℕ)}
    {φ : ℕ → MvPolynomial ℕ R} (hr : 0 < r) (hU : ∀ v, U v → v.OK)
    (hc : ∀ v w, U v → U w → v.id = w.id → v = w)
    (ha : Holds U D M a) (hns : ∀ x, a ≠ .s x) (hk : ∀ j, U (key j))
    (hinj : Function.Injective key) (hs : ∀ j, GoodDen U (B j) (S j 0 0) (val j))
    (hind : ∀ j l, (val j).Mentions (key l) → l = j)
    (hD : ∀ j, ∀ d ∈ D, SubstTerms (substTermsFor (key j) (B j)) d ⊆ D)
    (hφ : ∀ j, φ (key j).id = S j 0 0) (hφ' : ∀ i, (∀ j, (key j).id ≠ i) → φ i = X i)
    (he : a.substMap (List.ofFn fun j => (key j, val j)) = .ok e) :
    Holds U D (M.map (bind₁ φ)) e := by
  set sm : SubMap R := List.ofFn fun j => (key j, val j) with hsm
  have hmem : ∀ kv, kv ∈ sm ↔ ∃ j, (key j, val j) = kv := by
    intro kv
    simp [hsm, List.mem_ofFn]
  have hids : sm.map (·.1.id) = List.ofFn fun j => (key j).id := by
    rw [hsm, List.map_ofFn]
    rfl
  have hok : SubOK D sm := by
    refine ⟨?_, ?_, ?_, ?_⟩
    · rintro kv hkv
      obtain ⟨j, rfl⟩ := (hmem _).mp hkv
      exact ⟨hU _ (hk j), (good_iff.mp (hs j).1).1⟩
    · rw [hids, List.nodup_ofFn]
      exact fun i j hij => hinj (hc _ _ (hk i) (hk j) hij)
    · rintro kv hkv w hw hmem'
      obtain ⟨j, rfl⟩ := (hmem _).mp hkv
      rw [hids, List.mem_ofFn'] at hmem'
      obtain ⟨l, hl⟩ := hmem'
      have hwU : U w := (good_iff.mp (hs j).1).2.2 w hw
      obtain rfl : w = key l := (hc _ _ (hk l) hwU hl).symm
      rw [hind j l hw]
    · rintro kv hkv
      obtain ⟨j, rfl⟩ := (hmem _).mp hkv
      exact ⟨B j, (good_iff.mp (hs j).1).2.1, hD j⟩
  have hsim : Simul sm φ := by
    refine ⟨?_, fun i hi => hφ' i fun j hj => hi ?_⟩
    · rintro kv hkv
      obtain ⟨j, rfl⟩ := (hmem _).mp hkv
      rw [hφ, (hs j).2]
    · rw [hids, List.mem_ofFn']
      exact ⟨j, hj⟩
  have hUa : ∀ w, a.Mentions w → U w := by
    rintro w ⟨row, hrow, x, hx, hw⟩
    exact (good_iff.mp (ha.all row hrow x hx)).2.2 w hw
  have hsme : SameEnvMap sm a := by
    intro w hw kv hkv hid
    obtain ⟨j, rfl⟩ := (hmem _).mp hkv
    rw [hc _ _ (hUa w hw) (hk j) hid]
  obtain ⟨e', h1, -, h2, -, h3⟩ := substMap_array_partial hr hns hDr.free hDr.zero ha.canon
    (eden_spec ha).2.1 ha.denotes hok hsme hsim
  rw [he, Except.ok.injEq] at h1
  subst h1
  obtain ⟨e', h1, h4, -⟩ := Expr.substMap_ok (r := r) (k := c)
    (J := fun t _ _ x => Good U Set.univ x ∧ ∀ kv ∈ t, kv.1.OK ∧ Good U Set.univ kv.2) hr
    (fun _ _ _ _ h => h.1.check)
    (fun t i j => ⟨fun a h => ⟨stable_good.poly a h.1, h.2⟩,
      fun a m h hm => ⟨stable_good.mono a m h.1 hm, h.2⟩⟩)
    (fun kv t i j x hx => by
      have hkv := hx.2 kv (by simp)
      obtain ⟨g1, -, g3⟩ := good_iff.mp hx.1
      obtain ⟨s1, -, s3⟩ := good_iff.mp hkv.2
      obtain ⟨y, h1, h2, h3⟩ := substitute_total g1 hkv.1 s1
      exact ⟨y, h1, good_mentions h2 y.termsIn_univ fun w hw => (h3 w hw).elim (g3 w) (s3 w),
        fun kv' h' => hx.2 kv' (by simp [h'])⟩) hns hok.ok
    (EArr.mono ha fun _ _ x _ _ h => ⟨h.1.weaken (fun _ h => h) (Set.subset_univ _), by
      rintro kv hkv
      obtain ⟨j, rfl⟩ := (hmem _).mp hkv
      exact ⟨hU _ (hk j), (hs j).1.weaken (fun _ h => h) (Set.subset_univ _)⟩⟩)
  rw [he, Except.ok.injEq] at h1
  subst h1
  refine holds_mk (fun row hrow x hx => ?_) h3
  have h5 : e.All (Good U Set.univ) := h4.all fun _ _ _ h => h.1
  obtain ⟨g1, -, g3⟩ := good_iff.mp (h5 row hrow x hx)
  exact good_mentions g1 (h2 row hrow x hx) g3

end Steps

/-! ## The theorem -/

variable {U : Var R → Prop} {D : Set (ℕ →₀ ℕ)} {r c : ℕ} {e : Expr R}
  {M : Matrix (Fin r) (Fin c) (MvPolynomial ℕ R)}

theorem Computes.sound (hU : ∀ v, U v → v.OK) (hc : ∀ v w, U v → U w → v.id = w.id → v = w)
    (h : Computes U D M e) : 0 < r ∧ 0 < c ∧ TermRoom D ∧ Holds U D M e := by
  induction h with
  | k h => exact ⟨one_pos, one_pos, h, holds_s.mpr ⟨trivial, rfl⟩⟩
  | @var D v h hv hD => exact ⟨one_pos, one_pos, h, holds_s.mpr ⟨⟨hU _ hv, hv, hD⟩, rfl⟩⟩
  | @prog D p e h hn hk he =>
    obtain ⟨e', hx⟩ := Prog.run_exact h hU hc hn hk
    have := hx.run
    rw [he, Except.ok.injEq] at this
    subst this
    exact ⟨one_pos, one_pos, h.node.room, holds_s.mpr
      ⟨good_mentions hx.canon hx.terms fun w hw => hn w (hx.names w hw), hx.den⟩⟩
  | @kvec D r f h hr =>
    refine ⟨hr, one_pos, h, earr_v_iff.mpr (LArr.map_iff.mpr (larr_ofFn fun i => ⟨trivial, ?_⟩))⟩
    rw [extM_of _ i.2 one_pos]
    rfl
  | @vvec D r f h hr hf hD =>
    refine ⟨hr, one_pos, h, earr_v_iff.mpr (LArr.map_iff.mpr (larr_ofFn fun i =>
      ⟨⟨hU _ (hf i), hf i, hD i⟩, ?_⟩))⟩
    rw [extM_of _ i.2 one_pos]
    rfl
  | @kmat D r c f h hr hc =>
    refine ⟨hr, hc, h, earr_m_iff.mpr (Arr.map_iff.mpr (larr_ofFn fun i => larr_ofFn fun j =>
      ⟨trivial, ?_⟩))⟩
    rw [extM_of _ i.2 j.2]
    rfl
  | @vmat D r c f h hr hc hf hD =>
    refine ⟨hr, hc, h, earr_m_iff.mpr (Arr.map_iff.mpr (larr_ofFn fun i => larr_ofFn fun j =>
      ⟨⟨hU _ (hf i j), hf i j, hD i j⟩, ?_⟩))⟩
    rw [extM_of _ i.2 j.2]
    rfl
  | weaken h ha hD ih => exact ⟨ih.1, ih.2.1, h, ih.2.2.2.weaken hD⟩
  | plus ha hb he iha ihb =>
    refine ⟨iha.1, iha.2.1, iha.2.2.1, holds_of (Expr.plus_post (addSem_den iha.2.2.1.free) iha.1
      iha.2.1 iha.2.2.2 ihb.2.2.2) (fun i j => by simp [extM_fin]) he⟩
  | minus ha hb he iha ihb =>
    refine ⟨iha.1, iha.2.1, iha.2.2.1, holds_of (Expr.minus_post (mulSem_den (prodIn_const _)
      iha.2.2.1.free) holds_negOne iha.1 iha.2.1 iha.2.2.2 ihb.2.2.2)
      (fun i j => by simp [extM_fin, sub_eq_add_neg]) he⟩
  | mul h ha hb hD he iha ihb =>
    exact ⟨iha.1, ihb.2.1, h, holds_mul h.free hD iha.1 iha.2.1 ihb.2.1 iha.2.2.2 ihb.2.2.2 he⟩
  | plusScalar ha hs he iha ihs =>
    refine ⟨iha.1, iha.2.1, iha.2.2.1, holds_of (Expr.plus_scalar_post (addSem_den iha.2.2.1.free)
      iha.1 iha.2.1 iha.2.2.2 (holds_s.mp ihs.2.2.2)) (fun i j => by simp [extM_fin]) he⟩
  | minusScalar ha hs he iha ihs =>
    refine ⟨iha.1, iha.2.1, iha.2.2.1, holds_of (Expr.minus_scalar_post (mulSem_den (prodIn_const _)
      iha.2.2.1.free) holds_negOne iha.1 iha.2.1 iha.2.2.2 (holds_s.mp ihs.2.2.2))
      (fun i j => by simp [extM_fin, sub_eq_add_neg]) he⟩
  | mulScalar h ha hs hD he iha ihs =>
    refine ⟨iha.1, iha.2.1, h, holds_of (Expr.mul_scalar_post (mulSem_den hD h.free) iha.1 iha.2.1
      iha.2.2.2 (holds_s.mp ihs.2.2.2)) (fun i j => by simp [extM_fin]) he⟩
  | scalarPlus hs ha he ihs iha =>
    refine ⟨iha.1, iha.2.1, iha.2.2.1, holds_of (Expr.scalar_plus_post (addSem_den iha.2.2.1.free)
      iha.1 iha.2.1 (holds_s.mp ihs.2.2.2) iha.2.2.2) (fun i j => by simp [extM_fin]) he⟩
  | scalarMinus hs ha he ihs iha =>
    refine ⟨iha.1, iha.2.1, iha.2.2.1, holds_of (Expr.scalar_minus_post (mulSem_den (prodIn_const _)
      iha.2.2.1.free) holds_negOne iha.1 iha.2.1 (holds_s.mp ihs.2.2.2) iha.2.2.2)
      (fun i j => by simp [extM_fin, sub_eq_add_neg]) he⟩
  | scalarMul h hs ha hD he ihs iha =>
    refine ⟨iha.1, iha.2.1, h, holds_of (Expr.scalar_mul_post (mulSem_den hD h.free)
      (mulSem_den hD.symm h.free) iha.1 iha.2.1 (holds_s.mp ihs.2.2.2) iha.2.2.2)
      (fun i j => by simp [extM_fin]) he⟩
  | @scalarPow A D S s e n h hs hD he ihs =>
    have h1 := holds_s.mp ihs.2.2.2
    obtain ⟨y, h2, h3⟩ := Scalar.power_den h1.1 (n := (n : ℤ)) (by omega) (h.free.mono hD)
    rw [he, Except.ok.injEq] at h2
    subst h2
    exact ⟨one_pos, one_pos, h, holds_s.mpr ⟨h3.1.weaken (fun _ h => h) hD, by
      rw [h3.2, h1.2]; rfl⟩⟩
  | @vecPow A D S a e n h ha hD he iha =>
    have h1 := earr_v_iff.mp iha.2.2.2
    have hlen : a.entries.length = 1 := h1.1
    obtain ⟨x, hx⟩ := List.length_eq_one_iff.mp hlen
    have hxg : GoodDen U A (S 0 0) x := by
      have := h1.2 0 x (by rw [hx]; rfl)
      exact this
    rw [vec_power_single (Vec.single_canon iha.2.2.2.canon hx).1 hx] at he
    obtain ⟨y, h2, h3⟩ := Scalar.power_den hxg.1 (n := (n : ℤ)) (by omega) (h.free.mono hD)
    rw [he, Except.ok.injEq] at h2
    subst h2
    exact ⟨one_pos, one_pos, h, holds_s.mpr ⟨h3.1.weaken (fun _ h => h) hD, by
      rw [h3.2, hxg.2]; rfl⟩⟩
  | @matPow A r D M a e n h ha hD he iha =>
    exact ⟨iha.1, iha.1, h n le_rfl, holds_matPow iha.1 h iha.2.2.2 hD he⟩
  | transpose ha he iha =>
    obtain ⟨e', h1, h2⟩ := Expr.transpose_ok iha.2.2.2 iha.1 iha.2.1 fun _ _ _ h => goodDen_check h
    rw [he, Except.ok.injEq] at h1
    subst h1
    refine ⟨iha.2.1, iha.1, iha.2.2.1, h2.mono fun i j x hi hj hx => ?_⟩
    rw [extM_of _ hj hi] at hx
    rw [extM_of _ hi hj]
    exact hx
  | simp ha he iha =>
    exact ⟨iha.1, iha.2.1, iha.2.2.1, EArr.simpPost iha.1
      (fun _ _ => stable_goodDen iha.2.2.1.free _) iha.2.2.2 _ he⟩
  | @«at» D r c M a e ha i j he iha =>
    obtain ⟨y, h1, h2⟩ := EArr.at iha.2.2.2 (fun _ _ _ h => goodDen_check h) i.2 j.2
    rw [he, Except.ok.injEq] at h1
    subst h1
    rw [extM_fin] at h2
    exact ⟨one_pos, one_pos, iha.2.2.1, holds_s.mpr h2⟩
  | hstack ha hM he iha =>
    have := holds_hstack (iha 0).1 (fun k => (iha k).2.1) (fun k => (iha k).2.2.2) hM he
    exact ⟨(iha 0).1, this.1, (iha 0).2.2.1, this.2⟩
  | vstack ha hM he iha =>
    have := holds_vstack (iha 0).2.1 (fun k => (iha k).1) (fun k => (iha k).2.2.2) hM he
    exact ⟨this.1, (iha 0).2.1, (iha 0).2.2.1, this.2⟩
  | subst h ha hv hs hD he iha ihs =>
    exact ⟨iha.1, iha.2.1, h, holds_subst h.free iha.2.2.1.zero iha.1 iha.2.2.2
      (fun w hw hid => by rw [hc _ _ hw hv hid]) (hU _ hv) (holds_s.mp ihs.2.2.2) hD he⟩
  | substMap ha hns hk hinj hs hind hD hφ hφ' he iha ihs =>
    exact ⟨iha.1, iha.2.1, iha.2.2.1, holds_substMap iha.2.2.1 iha.1 hU hc iha.2.2.2 hns hk hinj
      (fun j => holds_s.mp (ihs j).2.2.2) hind hD hφ hφ' he⟩
  | deriv h ha hv hnm hD he iha =>
    exact ⟨iha.1, iha.2.1, h, holds_deriv h.free iha.1 iha.2.1 iha.2.2.2 (hU _ hv) hnm hD he⟩

/-- C63: the result of a program over scalars, vectors and matrices, all of whose calls return, is
well-formed, denotes the matrix the calls stand for, and names no variable the program does not name.
The hypotheses say that the variables pass `Check` and that two of them with the same ID are the
same. -/
theorem arrayProgram_partial (hU : ∀ v, U v → v.OK)
    (hc : ∀ v w, U v → U w → v.id = w.id → v = w) (h : Computes U D M e) :
    e.Shape r c ∧ e.Canon ∧ e.Denotes M ∧ ∀ v, e.Mentions v → U v := by
  obtain ⟨-, -, -, h4⟩ := h.sound hU hc
  refine ⟨EArr.shape h4, h4.canon, h4.denotes, ?_⟩
  rintro w ⟨row, hrow, x, hx, hw⟩
  exact (good_iff.mp (h4.all row hrow x hx)).2.2 w hw

/-- C63: `At` on the result gives an expression with the value of that entry of the matrix, at every
assignment. -/
theorem arrayProgram_value (hU : ∀ v, U v → v.OK) (hc : ∀ v w, U v → U w → v.id = w.id → v = w)
    (h : Computes U D M e) (i : Fin r) (j : Fin c) :
    ∃ s, e.at (i : ℕ) (j : ℕ) = .ok s ∧ s.Canon ∧ ∀ ρ, s.value ρ = eval ρ (M i j) := by
  obtain ⟨-, -, -, h4⟩ := h.sound hU hc
  obtain ⟨y, h1, h2⟩ := EArr.at h4 (fun _ _ _ h => goodDen_check h) i.2 j.2
  refine ⟨y, h1, (good_iff.mp h2.1).1, fun ρ => ?_⟩
  unfold Scalar.value
  rw [h2.2, extM_fin]

/-- C63: two programs that stand for the same matrix have the same values in every entry, whatever
calls they make and whatever the kinds of the results. -/
theorem arrayProgram_equal {D' : Set (ℕ →₀ ℕ)} {e' : Expr R} (hU : ∀ v, U v → v.OK)
    (hc : ∀ v w, U v → U w → v.id = w.id → v = w) (h : Computes U D M e) (h' : Computes U D' M e') :
    e.denGrid = e'.denGrid := by
  obtain ⟨-, -, h1, -⟩ := arrayProgram_partial hU hc h
  obtain ⟨-, -, h2, -⟩ := arrayProgram_partial hU hc h'
  exact Eq.trans h1 (Eq.symm h2)

/-- C63: a constraint between the results of two programs is satisfied by exactly the assignments at
which the two matrices compare in every entry. -/
theorem arrayProgram_compare {D' : Set (ℕ →₀ ℕ)} {e' : Expr R}
    {N : Matrix (Fin r) (Fin c) (MvPolynomial ℕ R)} (hU : ∀ v, U v → v.OK)
    (hc : ∀ v w, U v → U w → v.id = w.id → v = w) (h : Computes U D M e) (h' : Computes U D' N e')
    (hcmp : Comparable e e') (s : Sense) :
    ∃ con, e.comparison e' s = .ok con ∧
      ∀ ρ, con.Sat ρ ↔ ∀ i j, s.Holds (eval ρ (M i j)) (eval ρ (N i j)) := by
  obtain ⟨hr, -, -, h4⟩ := h.sound hU hc
  obtain ⟨-, -, -, h4'⟩ := h'.sound hU hc
  obtain ⟨con, h1, h2⟩ := comparison_sat_partial hr h4.canon (EArr.shape h4) h4'.canon
    (EArr.shape h4') hcmp s
  refine ⟨con, h1, fun ρ => (h2 ρ).trans ⟨fun h i j => ?_, fun h i j x y hx hy => ?_⟩⟩
  · obtain ⟨x, hx, gx⟩ := EArr.get h4 i.2 j.2
    obtain ⟨y, hy, gy⟩ := EArr.get h4' i.2 j.2
    have := h i j x y hx hy
    unfold Scalar.value at this
    rwa [gx.2, gy.2, extM_fin, extM_fin] at this
  · by_cases hij : i < r ∧ j < c
    · obtain ⟨x', hx', gx⟩ := EArr.get h4 hij.1 hij.2
      obtain ⟨y', hy', gy⟩ := EArr.get h4' hij.1 hij.2
      rw [hx, Option.some.injEq] at hx'
      rw [hy, Option.some.injEq] at hy'
      subst hx' hy'
      unfold Scalar.value
      rw [gx.2, gy.2, extM_of _ hij.1 hij.2, extM_of _ hij.1 hij.2]
      exact h _ _
    · rw [(EArr.shape h4).entry_none hij] at hx
      cases hx

/-! ## Without the side conditions the claim is false -/

/-- C63 as stated, without the condition on the terms, is false already for one call: the sum of the
columns `(x^2*y, 1)` and `(y^2*x, 1)` is returned as `(2*x^2*y, 2)`. -/
theorem arrayProgram_false :
    (Expr.v (.m [wm2 1 0 1 2 1, wm0 1])).plus (.v (.m [wm2 1 1 0 2 1, wm0 1])) =
      .ok (.v (.m [wm2 (2 : ℚ) 0 1 2 1, wm0 2])) ∧
    ¬ ∀ (a b e : Expr ℚ) (M N : Matrix (Fin 2) (Fin 1) (MvPolynomial ℕ ℚ)),
      a.Canon → a.Denotes M → b.Canon → b.Denotes N → a.plus b = .ok e → e.Denotes (M + N) := by
  have hm : (Expr.v (.m [wm2 1 0 1 2 1, wm0 1])).plus (.v (.m [wm2 1 1 0 2 1, wm0 1])) =
      .ok (.v (.m [wm2 (2 : ℚ) 0 1 2 1, wm0 2])) := by decide +kernel
  refine ⟨hm, fun h => ?_⟩
  have h1 := h _ _ _ !![(wm2 (1 : ℚ) 0 1 2 1).den; (wm0 (1 : ℚ)).den]
    !![(wm2 (1 : ℚ) 1 0 2 1).den; (wm0 (1 : ℚ)).den]
    (Expr.okDeg_canon 3 (by decide +kernel))
    (by simp [Expr.Denotes, Expr.grid, Vec.entries, Scalar.den, List.ofFn_succ])
    (Expr.okDeg_canon 3 (by decide +kernel))
    (by simp [Expr.Denotes, Expr.grid, Vec.entries, Scalar.den, List.ofFn_succ]) hm
  have h2 : (wm2 (2 : ℚ) 0 1 2 1).den = (wm2 (1 : ℚ) 0 1 2 1).den + (wm2 (1 : ℚ) 1 0 2 1).den := by
    have h3 : [[(wm2 (2 : ℚ) 0 1 2 1).den], [(wm0 (2 : ℚ)).den]] =
      [[(wm2 (1 : ℚ) 0 1 2 1).den + (wm2 (1 : ℚ) 1 0 2 1).den],
        [(wm0 (1 : ℚ)).den + (wm0 (1 : ℚ)).den]] := by
      exact h1.trans (by simp [List.ofFn_succ])
    injection h3 with h3 _
    injection h3
  simp only [Mono.den, wm2_degs] at h2
  have := congrArg (eval (fun i => if i = 0 then (2 : ℚ) else 1)) h2
  simp [wm2, wv, eval_monomial] at this
  norm_num at this

/-! ## Examples -/

/-- The variables of the examples. -/
def wUs (v : Var ℚ) : Prop := ∃ i, v = wv i

theorem wUs_ok : ∀ v, wUs v → v.OK := by
  rintro v ⟨i, rfl⟩
  exact wv_ok i

theorem wUs_same : ∀ v w, wUs v → wUs w → v.id = w.id → v = w := by
  rintro v w ⟨i, rfl⟩ ⟨j, rfl⟩ h
  rw [show i = j from h]

/-- The column `(x, y)`. -/
def wCol : Expr ℚ := .v (.v (List.ofFn ![wx, wy]))

/-- The same column as a matrix of variables. -/
def wCol2 : Expr ℚ := .m (.v (List.ofFn fun i => List.ofFn fun j => !![wx; wy] i j))

theorem wCol2_computes : Computes wUs (degLE 1)
    (Matrix.of fun i (j : Fin 1) => X ((!![wx; wy] : Matrix (Fin 2) (Fin 1) _) i j).id) wCol2 :=
  .vmat (termRoom_degLE (by decide)) (by decide) (by decide)
    (fun i j => by fin_cases i <;> fin_cases j <;> exact ⟨_, rfl⟩) (fun _ _ => single_degLE _ le_rfl)

/-- The matrix with rows `(1, 2)` and `(3, 4)`. -/
def wSq : Expr ℚ := .m (.k (List.ofFn fun i => List.ofFn (!![1, 2; 3, 4] i)))

theorem wCol_computes : Computes wUs (degLE 1) (Matrix.of fun i (_ : Fin 1) => X (![wx, wy] i).id) wCol :=
  .vvec (termRoom_degLE (by decide)) (by decide)
    (fun i => by fin_cases i <;> exact ⟨_, rfl⟩) (fun _ => single_degLE _ le_rfl)

theorem wSq_computes : Computes wUs (degLE 0)
    (Matrix.of fun i j => C ((!![1, 2; 3, 4] : Matrix (Fin 2) (Fin 2) ℚ) i j)) wSq :=
  .kmat (termRoom_degLE (by decide)) (by decide) (by decide)

theorem denotes_congr {r c : ℕ} {e : Expr ℚ} {M N : Matrix (Fin r) (Fin c) (MvPolynomial ℕ ℚ)}
    (h : e.Denotes M) (hM : ∀ i j, M i j = N i j) : e.Denotes N := by
  rwa [← Matrix.ext hM]

/-- The quadratic form `(A x)ᵀ x`, and its derivative by `x`. -/
example : ∃ w t q d, wSq.mul wCol = .ok w ∧ w.transpose = .ok t ∧ t.mul wCol2 = .ok q ∧
    q.derivative wx = .ok d ∧
    q.Denotes !![(X 0 ^ 2 + 5 * (X 0 * X 1) + 4 * X 1 ^ 2 : MvPolynomial ℕ ℚ)] ∧
    d.Denotes !![(2 * X 0 + 5 * X 1 : MvPolynomial ℕ ℚ)] := by
  have hret : ∀ {x : Go (Expr ℚ)}, x.isOk = true → ∃ e, x = .ok e := by
    intro x h
    cases x with
    | ok e => exact ⟨e, rfl⟩
    | error e => cases h
  obtain ⟨d, hd⟩ := hret (x := do
    let w ← wSq.mul wCol
    let t ← w.transpose
    let q ← t.mul wCol2
    q.derivative wx) (by decide +kernel)
  obtain ⟨w, hw, hd⟩ := Go.bind_eq_ok.mp hd
  obtain ⟨t, ht, hd⟩ := Go.bind_eq_ok.mp hd
  obtain ⟨q, hq, hd⟩ := Go.bind_eq_ok.mp hd
  have c2 : Computes wUs (degLE 1) _ w := .mul (termRoom_degLE (by decide)) wSq_computes wCol_computes
    (prodIn_degLE 0 1) hw
  have c1 : Computes wUs (degLE 1) _ t := .transpose c2 ht
  have c3 : Computes wUs (degLE 2) _ q := .mul (termRoom_degLE le_rfl) c1 wCol2_computes (prodIn_degLE 1 1) hq
  have c4 : Computes wUs (degLE 1) _ d := .deriv (termRoom_degLE (by decide)) c3 ⟨0, rfl⟩ (by
    rintro l rfl
    have hk : ((do
      let w ← wSq.mul wCol
      let t ← w.transpose
      t.mul wCol2 : Go (Expr ℚ)) matches .ok (.s _)) = true := by decide +kernel
    rw [hw, Go.ok_bind, ht, Go.ok_bind, hq] at hk
    cases hk) (by
    intro e he
    have := degree_add e (Finsupp.single wx.id 1)
    rw [Finsupp.sum_single_index rfl] at this
    have h2 : ((e + Finsupp.single wx.id 1).sum fun _ e => e) ≤ 2 := he
    show (e.sum fun _ e => e) ≤ 1
    omega) hd
  have e3 := (arrayProgram_partial wUs_ok wUs_same c3).2.2.1
  have e4 := (arrayProgram_partial wUs_ok wUs_same c4).2.2.1
  refine ⟨w, t, q, d, hw, ht, hq, hd, ?_, ?_⟩
  · refine denotes_congr e3 fun i j => ?_
    fin_cases i
    fin_cases j
    simp [Matrix.mul_apply, wv]
    rw [map_ofNat C 2, map_ofNat C 3, map_ofNat C 4]
    ring
  · refine denotes_congr e4 fun i j => ?_
    fin_cases i
    fin_cases j
    simp [Matrix.mul_apply, wv, pderiv_X, Pi.single_apply]
    rw [map_ofNat C 2, map_ofNat C 3]
    ring

/-- The constraint `A x ≤ x` is satisfied by the assignments with `x + 2y ≤ x` and `3x + 4y ≤ y`. -/
example : ∃ w con, wSq.mul wCol = .ok w ∧ w.comparison wCol .le = .ok con ∧
    ∀ ρ, con.Sat ρ ↔ ρ 0 + 2 * ρ 1 ≤ ρ 0 ∧ 3 * ρ 0 + 4 * ρ 1 ≤ ρ 1 := by
  have hk : (wSq.mul wCol matches .ok (.v (.p _))) = true := by decide +kernel
  cases hw : wSq.mul wCol with
  | error e => rw [hw] at hk; cases hk
  | ok w =>
    rw [hw] at hk
    have c : Computes wUs (degLE 1) _ w := .mul (termRoom_degLE (by decide)) wSq_computes wCol_computes
      (prodIn_degLE 0 1) hw
    have hcmp : Comparable w wCol := by
      match w, hk with
      | .v (.p _), _ => trivial
    obtain ⟨con, h1, h2⟩ := arrayProgram_compare wUs_ok wUs_same c wCol_computes hcmp .le
    refine ⟨w, con, rfl, h1, fun ρ => (h2 ρ).trans ?_⟩
    simp [Fin.forall_fin_two, Matrix.mul_apply, wv, Sense.Holds]

end Verif
