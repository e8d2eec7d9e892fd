import Verif.Lemmas.Arr

/-!
# Arithmetic of vectors and matrices, entry by entry

Each lemma has the form: if the scalar operation used for entry `(i, j)` succeeds with `Q i j`, then
the array operation succeeds and its entries satisfy `Q`.
-/

namespace Verif

open GoNum

variable {R : Type} [GoNum R] {n r c k : ℕ}

theorem checkDimAdd_same (d : ℕ × ℕ) : checkDimAdd d d = .ok () := by
  simp [checkDimAdd, Go.pure_eq]

theorem checkDimAdd_right (d : ℕ × ℕ) : checkDimAdd d (1, 1) = .ok () := by
  simp [checkDimAdd, isScalarDims, Go.pure_eq]

theorem checkDimAdd_left (d : ℕ × ℕ) : checkDimAdd (1, 1) d = .ok () := by
  simp [checkDimAdd, isScalarDims, Go.pure_eq]

theorem checkDimMul_right (d : ℕ × ℕ) : checkDimMul d (1, 1) = .ok () := by
  simp [checkDimMul, isScalarDims, Go.pure_eq]

theorem checkDimMul_left (d : ℕ × ℕ) : checkDimMul (1, 1) d = .ok () := by
  simp [checkDimMul, isScalarDims, Go.pure_eq]

theorem checkDimMul_inner (a b c : ℕ) : checkDimMul (a, b) (b, c) = .ok () := by
  simp [checkDimMul, Go.pure_eq]

/-- The shape of the result of a vector operation: a scalar for length one, else a vector. -/
def VKind (n : ℕ) (e : Expr R) : Prop := (n = 1 → ∃ a, e = .s a) ∧ (n ≠ 1 → ∃ a, e = .v a)

/-- The shape of the result of `ConcretizeExpression`: scalar, vector or matrix by dimensions. -/
def MKind (r c : ℕ) (e : Expr R) : Prop :=
  (r = 1 ∧ c = 1 → ∃ a, e = .s a) ∧ (r ≠ 1 ∧ c = 1 → ∃ a, e = .v a) ∧ (c ≠ 1 → ∃ a, e = .m a)

theorem concretizeV_ok' {Q : ℕ → Scalar R → Prop} {l : List (Scalar R)} (h : LArr n Q l) (hn : 0 < n)
    (hS : ∀ i, i < n → Stable (Q i)) :
    Go.Ok (concretizeV l) (fun e => EArr n 1 (fun i _ => Q i) e ∧ VKind n e) :=
  concretizeV_ok h hn hS

/-- `AsSimplifiedExpression` after an operation. -/
theorem simp_v {Q : ℕ → Scalar R → Prop} {e : Expr R} (hn : 0 < n)
    (hS : ∀ i, i < n → Stable (Q i)) (h : EArr n 1 (fun i _ => Q i) e ∧ VKind n e) :
    Go.Ok e.asSimplified (fun e => EArr n 1 (fun i _ => Q i) e ∧ VKind n e) := by
  refine (h.1.asSimplified hn fun i _ hi _ => hS i hi).mono fun e' he => ⟨he.1, ?_, ?_⟩
  · exact fun h1 => he.2.1 (h.2.1 h1)
  · exact fun h1 => he.2.2.1 (h.2.2 h1)

theorem simp_m {Q : ℕ → ℕ → Scalar R → Prop} {e : Expr R} (hr : 0 < r)
    (hS : ∀ i j, i < r → j < c → Stable (Q i j)) (h : EArr r c Q e ∧ MKind r c e) :
    Go.Ok e.asSimplified (fun e => EArr r c Q e ∧ MKind r c e) := by
  refine (h.1.asSimplified hr hS).mono fun e' he => ⟨he.1, ?_, ?_, ?_⟩
  · exact fun h1 => he.2.1 (h.2.1 h1)
  · exact fun h1 => he.2.2.1 (h.2.2.1 h1)
  · exact fun h1 => he.2.2.2 (h.2.2.2 h1)

/-! ## Vector Plus -/

section
variable {Qa Qb Q : ℕ → Scalar R → Prop} {a b : Vec R}

theorem Vec.plus_scalar_ok (hn : 0 < n) (ha : VArr n Qa a) (hca : ∀ i x, Qa i x → x.check = .ok ())
    {s : Scalar R} (hs : s.check = .ok ()) (hS : ∀ i, i < n → Stable (Q i))
    (hop : ∀ i x, i < n → Qa i x → Go.Ok (x.plus s) (Q i)) :
    Go.Ok (a.plus (.s s)) (fun e => EArr n 1 (fun i _ => Q i) e ∧ VKind n e) := by
  unfold Vec.plus
  simp only [ha.check hn hca, ha.dims hn hca, Expr.check, hs, Expr.dims, Go.ok_bind, Go.pure_eq,
    checkDimAdd_right, vecPlusTemplate]
  refine Go.Ok.bind (Q := fun e => EArr n 1 (fun i _ => Q i) e ∧ VKind n e) ?_
    fun _ he => simp_v hn hS he
  exact Go.Ok.bind (LArr.mapM ha hop) fun l hl => concretizeV_ok' hl hn hS

theorem Vec.plus_vec_ok (hn : 0 < n) (ha : VArr n Qa a) (hca : ∀ i x, Qa i x → x.check = .ok ())
    (hb : VArr n Qb b) (hcb : ∀ i x, Qb i x → x.check = .ok ()) (hS : ∀ i, i < n → Stable (Q i))
    (hop : ∀ i x y, i < n → Qa i x → Qb i y → Go.Ok (x.plus y) (Q i)) :
    Go.Ok (a.plus (.v b)) (fun e => EArr n 1 (fun i _ => Q i) e ∧ VKind n e) := by
  unfold Vec.plus
  simp only [ha.check hn hca, ha.dims hn hca, Expr.check, hb.check hn hcb, Expr.dims,
    hb.dims hn hcb, Go.ok_bind, checkDimAdd_same, vecPlusTemplate]
  refine Go.Ok.bind (Q := fun e => EArr n 1 (fun i _ => Q i) e ∧ VKind n e) ?_
    fun _ he => simp_v hn hS he
  refine Go.Ok.bind (LArr.mapM (Q' := Q) (LArr.zipIdx ha) fun i xi hi hx => ?_)
    fun l hl => concretizeV_ok' hl hn hS
  obtain ⟨h1, h2⟩ := hx
  rw [h2]
  exact Go.Ok.bind (hb.atVec hcb hi) fun y hy => hop i _ y hi h1 hy

/-! ## Vector Multiply -/

/-- The scalars a vector kind accepts in `Multiply`: `PolynomialVector` takes only `K` and
`Polynomial`. -/
def Vec.Scalable (a : Vec R) (s : Scalar R) : Prop :=
  (∃ l, a = .p l) → (∃ c, s = .k c) ∨ ∃ q, s = .poly q

theorem Vec.mulScalar_ok (hn : 0 < n) (ha : VArr n Qa a) (hca : ∀ i x, Qa i x → x.check = .ok ())
    {s : Scalar R} (hs : s.check = .ok ()) (hsc : a.Scalable s) (hS : ∀ i, i < n → Stable (Q i))
    (hop : ∀ i x, i < n → Qa i x → Go.Ok (x.mul s) (Q i)) :
    Go.Ok (a.mulScalar s) (fun e => EArr n 1 (fun i _ => Q i) e ∧ VKind n e) := by
  have key : Go.Ok (vecMulTemplate a (.s s)) (fun e => EArr n 1 (fun i _ => Q i) e ∧ VKind n e) :=
    Go.Ok.bind (LArr.mapM ha hop) fun l hl => concretizeV_ok' hl hn hS
  unfold Vec.mulScalar
  simp only [ha.check hn hca, ha.dims hn hca, hs, Go.ok_bind, checkDimMul_right]
  cases a with
  | p l =>
    rcases hsc ⟨l, rfl⟩ with ⟨c, rfl⟩ | ⟨q, rfl⟩ <;>
      exact Go.Ok.bind key fun _ he => simp_v hn hS he
  | k l => cases s <;> exact Go.Ok.bind key fun _ he => simp_v hn hS he
  | v l => cases s <;> exact Go.Ok.bind key fun _ he => simp_v hn hS he
  | m l => cases s <;> exact Go.Ok.bind key fun _ he => simp_v hn hS he

/-- `Variable.Multiply` on a vector multiplies from the right. -/
theorem Var.mulVec_ok (hn : 0 < n) {v : Var R} (hv : v.OK) (hb : VArr n Qb b)
    (hcb : ∀ i x, Qb i x → x.check = .ok ()) (hS : ∀ i, i < n → Stable (Q i))
    (hop : ∀ i x, i < n → Qb i x → Go.Ok (x.mul (.var v)) (Q i)) :
    Go.Ok (v.mulVec b) (fun e => EArr n 1 (fun i _ => Q i) e ∧ VKind n e) := by
  unfold Var.mulVec
  simp only [hv.check, hb.check hn hcb, hb.dims hn hcb, Go.ok_bind, checkDimMul_left]
  refine Go.Ok.bind (Q := fun e => EArr n 1 (fun i _ => Q i) e ∧ VKind n e) ?_
    fun _ he => simp_v hn hS he
  exact Go.Ok.bind (LArr.mapM hb hop) fun l hl => concretizeV_ok' hl hn hS

theorem Var.mulVecDense_ok (hn : 0 < n) {v : Var R} (hv : v.OK) {l : List R} (hb : VArr n Qb (.k l))
    (hcb : ∀ i x, Qb i x → x.check = .ok ()) (hS : ∀ i, i < n → Stable (Q i))
    (hop : ∀ i x, i < n → Qb i x → Go.Ok (x.mul (.var v)) (Q i)) :
    Go.Ok (v.mulVecDense l) (fun e => EArr n 1 (fun i _ => Q i) e ∧ VKind n e) :=
  Go.Ok.bind (Var.mulVec_ok hn hv hb hcb hS hop) fun _ he =>
    Go.Ok.bind (simp_v hn hS he) fun _ he => simp_v hn hS he

/-- `Polynomial.Plus` on a vector. -/
theorem Poly.plus_vec_ok (hn : 0 < n) {p : Poly R} (hp : p.check = .ok ()) (hb : VArr n Qb b)
    (hcb : ∀ i x, Qb i x → x.check = .ok ()) (hS : ∀ i, i < n → Stable (Q i))
    (hop : ∀ i x, i < n → Qb i x → Go.Ok (p.plus x) (Q i)) :
    Go.Ok (p.plusExpr (.v b)) (fun e => EArr n 1 (fun i _ => Q i) e ∧ VKind n e) := by
  unfold Poly.plusExpr
  simp only [hp, hb.check hn hcb, hb.len hn hcb, Go.ok_bind]
  by_cases h1 : n = 1
  · subst h1
    simp only [if_true]
    refine Go.Ok.bind (hb.atVec hcb (i := 0) hn) fun x hx => ?_
    refine Go.Ok.bind (hop 0 x hn hx) fun y hy => ?_
    exact simp_v hn hS ⟨earr_s hy, fun _ => ⟨_, rfl⟩, fun h => absurd rfl h⟩
  · simp only [if_neg h1]
    refine Go.Ok.bind (LArr.mapM (Q' := Q) (LArr.range n) fun i a hi ha => ?_) fun l hl =>
      Go.Ok.bind (concretizeV_ok' hl hn hS) fun _ he => simp_v hn hS he
    subst ha
    exact Go.Ok.bind (hb.atVec hcb hi) fun x hx => hop _ x hi hx

end

/-! ## Matrix Plus -/

section
variable {Qa Qb Q : ℕ → ℕ → Scalar R → Prop} {a b : Mat R}

theorem matPlusTemplate_ok (hr : 0 < r) (ha : MArr r c Qa a)
    (hca : ∀ i j x, Qa i j x → x.check = .ok ()) (hb : MArr r c Qb b)
    (hcb : ∀ i j x, Qb i j x → x.check = .ok ()) (hS : ∀ i j, i < r → j < c → Stable (Q i j))
    (hop : ∀ i j x y, i < r → j < c → Qa i j x → Qb i j y → Go.Ok (x.plus y) (Q i j)) :
    Go.Ok (matPlusTemplate a b) (MArr r c Q) := by
  unfold matPlusTemplate
  simp only [ha.check hr hca, hb.check hr hcb, ha.dims hr hca, hb.dims hr hcb, Go.ok_bind,
    ne_eq, not_true, if_false]
  show Go.Ok ((List.range r).mapM (fun (i : ℕ) => (List.range c).mapM (fun (j : ℕ) => do
    let x ← a.at i j
    let y ← b.at i j
    x.plus y)) >>= concretizeMat) (MArr r c Q)
  refine Go.Ok.bind (Arr.mapRange (Q' := Q) r c fun i j hi hj => ?_) fun g hg =>
    concretizeMat_ok hg hr hS
  refine Go.Ok.bind (ha.at hca hi hj) fun x hx => ?_
  exact Go.Ok.bind (hb.at hcb hi hj) fun y hy => hop i j x y hi hj hx hy

/-- `KMatrix.Plus` of a matrix of the same size, of any kind. -/
theorem kmPlus_mat_ok (hr : 0 < r) {rows : List (List R)} (ha : MArr r c Qa (.k rows))
    (hca : ∀ i j x, Qa i j x → x.check = .ok ()) (hb : MArr r c Qb b)
    (hcb : ∀ i j x, Qb i j x → x.check = .ok ()) (hS : ∀ i j, i < r → j < c → Stable (Q i j))
    (hop : ∀ i j x y, i < r → j < c → Qa i j x → Qb i j y → Go.Ok (x.plus y) (Q i j)) :
    Go.Ok (kmPlus rows (.m b)) (fun e => EArr r c Q e ∧ ∃ m, e = .m m) := by
  unfold kmPlus
  simp only [Expr.check, hb.check hr hcb, (Arr.map_iff.mp ha).rowDims hr, Expr.dims, hb.dims hr hcb,
    Go.ok_bind, checkDimAdd_same]
  refine Go.Ok.bind (matPlusTemplate_ok hr ha hca hb hcb hS hop) fun m hm => ?_
  exact Go.Ok.bind (hm.asSimplified hr hS) fun m' hm' => Go.ok_pure ⟨hm', m', rfl⟩

/-- `KMatrix.Plus` of a constant. -/
theorem kmPlus_k_ok (hr : 0 < r) (hc : 0 < c) {rows : List (List R)} (ha : MArr r c Qa (.k rows))
    (d : R) (hop : ∀ i j x, i < r → j < c → Qa i j (.k x) → Q i j (.k (add (mul d one) x))) :
    Go.Ok (kmPlus rows (.s (.k d))) (fun e => EArr r c Q e ∧ ∃ m, e = .m m) := by
  unfold kmPlus
  simp only [Expr.check, Scalar.check, (Arr.map_iff.mp ha).rowDims hr, Expr.dims, Go.pure_eq,
    Go.ok_bind, checkDimAdd_right, constRows]
  rw [if_neg (by omega)]
  simp only [Go.ok_bind]
  refine Go.Ok.bind (kToDense_ok (Arr.map_iff.mp ha) hr hc) fun ks hks => ?_
  refine ⟨_, rfl, ?_, _, rfl⟩
  refine earr_m_iff.mpr (Arr.map_iff.mpr ?_)
  have h1 : Arr r c (fun _ _ x => x = mul d one) (List.replicate r (List.replicate c (mul d one))) :=
    LArr.replicate fun i _ => LArr.replicate fun j _ => rfl
  refine LArr.zipWith h1 hks fun i x y hi hx hy => ?_
  refine LArr.zipWith hx hy fun j u w hj hu hw => ?_
  subst hu
  exact hop i j w hi hj hw

/-- `KMatrix.Plus` of a variable. -/
theorem kmPlus_var_ok (hr : 0 < r) {rows : List (List R)} (ha : MArr r c Qa (.k rows))
    (hca : ∀ i j x, Qa i j x → x.check = .ok ()) {v : Var R} (hv : v.OK)
    (hS : ∀ i j, i < r → j < c → Stable (Q i j))
    (hop : ∀ i j x, i < r → j < c → Qa i j x → Go.Ok (x.plus (.var v)) (Q i j)) :
    Go.Ok (kmPlus rows (.s (.var v))) (fun e => EArr r c Q e ∧ ∃ m, e = .m m) := by
  have hb : MArr r c (fun _ _ x => x = .var v) (.v (List.replicate r (List.replicate c v))) :=
    Arr.map_iff.mpr (LArr.replicate fun i _ => LArr.replicate fun j _ => rfl)
  unfold kmPlus
  simp only [Expr.check, Scalar.check, hv.check, (Arr.map_iff.mp ha).rowDims hr, Expr.dims,
    Go.pure_eq, Go.ok_bind, checkDimAdd_right]
  refine Go.Ok.bind (matPlusTemplate_ok hr ha hca hb (fun i j x hx => by rw [hx]; exact hv.check)
    hS (fun i j x y hi hj hx hy => by rw [hy]; exact hop i j x hi hj hx)) fun m hm => ?_
  refine Go.Ok.bind (hm.asSimplified hr hS) fun m' hm' => ?_
  exact Go.Ok.bind (hm'.asSimplified hr hS) fun m' hm' => Go.ok_pure ⟨hm', m', rfl⟩

/-- `MonomialMatrix.Plus` of a scalar. -/
theorem mmPlus_scalar_ok (hr : 0 < r) {rows : List (List (Mono R))} (ha : MArr r c Qa (.m rows))
    (hca : ∀ i j x, Qa i j x → x.check = .ok ()) {s : Scalar R} (hs : s.check = .ok ())
    (hsi : ∀ i j m, Qa i j (.mono m) → ∃ q, Poly.simplify ⟨m :: s.toPoly.monos⟩ = .ok q)
    (hop : ∀ i j m, i < r → j < c → Qa i j (.mono m) → Q i j (.poly ⟨m :: s.toPoly.monos⟩)) :
    Go.Ok (mmPlus rows (.s s)) (fun e => EArr r c Q e ∧ ∃ m, e = .m m) := by
  unfold mmPlus
  simp only [ha.check hr hca, Expr.check, hs, (Arr.map_iff.mp ha).rowDims hr, Expr.dims,
    Go.pure_eq, Go.ok_bind, checkDimAdd_right]
  refine Go.Ok.bind (Arr.mapM (Q' := fun i j p => Q i j (.poly p)) (Arr.map_iff.mp ha)
    fun i j m hi hj hm => ?_) fun g hg => ⟨_, rfl, earr_m_iff.mpr (Arr.map_iff.mpr hg), _, rfl⟩
  obtain ⟨q, hq⟩ := hsi i j m hm
  unfold mmPlusEntry
  rw [hq, Go.ok_bind]
  exact Go.ok_pure (hop i j m hi hj hm)

/-- `MonomialMatrix.Plus` of a `PolynomialMatrix`. -/
theorem mmPlus_pm_ok (hr : 0 < r) {rows : List (List (Mono R))} (ha : MArr r c Qa (.m rows))
    (hca : ∀ i j x, Qa i j x → x.check = .ok ()) {ps : List (List (Poly R))}
    (hb : MArr r c Qb (.p ps)) (hcb : ∀ i j x, Qb i j x → x.check = .ok ())
    (hsi : ∀ i j m p, Qa i j (.mono m) → Qb i j (.poly p) →
      ∃ q, Poly.simplify ⟨m :: p.monos⟩ = .ok q)
    (hop : ∀ i j m p, i < r → j < c → Qa i j (.mono m) → Qb i j (.poly p) →
      Q i j (.poly ⟨m :: p.monos⟩)) :
    Go.Ok (mmPlus rows (.m (.p ps))) (fun e => EArr r c Q e ∧ ∃ m, e = .m m) := by
  unfold mmPlus
  simp only [ha.check hr hca, Expr.check, hb.check hr hcb, (Arr.map_iff.mp ha).rowDims hr, Expr.dims,
    hb.dims hr hcb, Go.ok_bind, checkDimAdd_same]
  refine Go.Ok.bind (P := Arr r c fun i j p => Q i j (.poly p)) ?_
    fun g hg => ⟨_, rfl, earr_m_iff.mpr (Arr.map_iff.mpr hg), _, rfl⟩
  refine LArr.mapM (LArr.zipIdx (Arr.map_iff.mp ha)) fun i ri hi hri => ?_
  obtain ⟨h1, h2⟩ := hri
  refine LArr.mapM (LArr.zipIdx h1) fun j mj hj hmj => ?_
  obtain ⟨h3, h4⟩ := hmj
  rw [h2, h4]
  refine Go.Ok.bind ((Arr.map_iff.mp hb).goGet2 hi hj) fun p hp => ?_
  obtain ⟨q, hq⟩ := hsi i j _ p h3 hp
  unfold mmPlusEntry
  rw [hq, Go.ok_bind]
  exact Go.ok_pure (hop i j _ p hi hj h3 hp)

/-- `PolynomialMatrix.Plus` of a scalar that is not a variable. -/
theorem pmPlus_scalar_ok (hr : 0 < r) (hc : 0 < c) {rows : List (List (Poly R))}
    (ha : MArr r c Qa (.p rows)) (hca : ∀ i j x, Qa i j x → x.check = .ok ()) {s : Scalar R}
    (hs : s.check = .ok ()) (hnv : ∀ v, s ≠ .var v) (hS : ∀ i j, i < r → j < c → Stable (Q i j))
    (hop : ∀ i j p t, i < r → j < c → Qa i j (.poly p) → (t = s ∨ t = .poly s.toPoly) →
      Go.Ok (p.plus t) (Q i j)) :
    Go.Ok (pmPlus rows (.s s)) (fun e => EArr r c Q e ∧ MKind r c e) := by
  have key : ∀ t, (t = s ∨ t = .poly s.toPoly) →
      Go.Ok (rows.mapM (·.mapM (fun p => p.plus t)) >>= concretizeM)
        (fun e => EArr r c Q e ∧ MKind r c e) := fun t ht =>
    Go.Ok.bind (Arr.mapM (Arr.map_iff.mp ha) fun i j p hi hj hp => hop i j p t hi hj hp ht)
      fun g hg => concretizeM_ok hg hr hc hS
  unfold pmPlus
  simp only [ha.check hr hca, Expr.check, hs, (Arr.map_iff.mp ha).rowDims hr, Expr.dims,
    Go.pure_eq, Go.ok_bind, checkDimAdd_right]
  cases s with
  | k d =>
    simp only [← bind_assoc]
    exact Go.Ok.bind (key _ (Or.inl rfl)) fun _ he => simp_m hr hS he
  | var v => exact absurd rfl (hnv v)
  | mono m =>
    simp only [← bind_assoc]
    exact Go.Ok.bind (Go.Ok.bind (key _ (Or.inr rfl)) fun _ he => simp_m hr hS he)
      fun _ he => simp_m hr hS he
  | poly p =>
    simp only [← bind_assoc]
    exact Go.Ok.bind (key _ (Or.inl rfl)) fun _ he => simp_m hr hS he

/-- `PolynomialMatrix.Plus` of a `KMatrix` or `PolynomialMatrix`. -/
theorem pmPlus_mat_ok (hr : 0 < r) (hc : 0 < c) {rows : List (List (Poly R))}
    (ha : MArr r c Qa (.p rows)) (hca : ∀ i j x, Qa i j x → x.check = .ok ())
    (hb : MArr r c Qb b) (hcb : ∀ i j x, Qb i j x → x.check = .ok ())
    (hk : (∃ ks, b = .k ks) ∨ ∃ ps, b = .p ps) (hS : ∀ i j, i < r → j < c → Stable (Q i j))
    (hop : ∀ i j p y, i < r → j < c → Qa i j (.poly p) → Qb i j y → Go.Ok (p.plus y) (Q i j)) :
    Go.Ok (pmPlus rows (.m b)) (fun e => EArr r c Q e ∧ MKind r c e) := by
  unfold pmPlus
  simp only [ha.check hr hca, Expr.check, hb.check hr hcb, (Arr.map_iff.mp ha).rowDims hr, Expr.dims,
    hb.dims hr hcb, Go.ok_bind, checkDimAdd_same]
  rcases hk with ⟨ks, rfl⟩ | ⟨ps, rfl⟩
  · refine Go.Ok.bind (P := Arr r c Q) ?_ fun g hg =>
      Go.Ok.bind (concretizeM_ok hg hr hc hS) fun _ he => simp_m hr hS he
    refine LArr.mapM (LArr.zipIdx (Arr.map_iff.mp ha)) fun i ri hi hri => ?_
    obtain ⟨h1, h2⟩ := hri
    refine LArr.mapM (LArr.zipIdx h1) fun j mj hj hmj => ?_
    obtain ⟨h3, h4⟩ := hmj
    rw [h2, h4]
    exact Go.Ok.bind (hb.at hcb hi hj) fun y hy => hop i j _ y hi hj h3 hy
  · refine Go.Ok.bind (P := Arr r c Q) ?_ fun g hg =>
      Go.Ok.bind (concretizeM_ok hg hr hc hS) fun _ he => simp_m hr hS he
    refine LArr.mapM (LArr.zipIdx (Arr.map_iff.mp ha)) fun i ri hi hri => ?_
    obtain ⟨h1, h2⟩ := hri
    refine LArr.mapM (LArr.zipIdx h1) fun j mj hj hmj => ?_
    obtain ⟨h3, h4⟩ := hmj
    rw [h2, h4]
    exact Go.Ok.bind ((Arr.map_iff.mp hb).goGet2 hi hj) fun y hy => hop i j _ _ hi hj h3 hy

/-- `VariableMatrix.Plus(KMatrix)`, when every sum is a polynomial. -/
theorem vmPlusK_ok {rows : List (List (Var R))} (ha : MArr r c Qa (.v rows))
    {ks : List (List R)} (hb : MArr r c Qb (.k ks))
    (hop : ∀ i j v d, i < r → j < c → Qa i j (.var v) → Qb i j (.k d) →
      Go.Ok (v.plus (.k d)) (fun x => Q i j x ∧ ∃ p, x = .poly p)) :
    Go.Ok (vmPlusK rows ks) (fun e => EArr r c Q e ∧ ∃ m, e = .m (.p m)) := by
  unfold vmPlusK
  refine Go.Ok.bind (P := Arr r c fun i j p => Q i j (.poly p)) ?_
    fun g hg => ⟨_, rfl, earr_m_iff.mpr (Arr.map_iff.mpr hg), _, rfl⟩
  refine LArr.mapM (LArr.zipIdx (Arr.map_iff.mp ha)) fun i ri hi hri => ?_
  obtain ⟨h1, h2⟩ := hri
  refine LArr.mapM (LArr.zipIdx h1) fun j mj hj hmj => ?_
  obtain ⟨h3, h4⟩ := hmj
  rw [h2, h4]
  refine Go.Ok.bind ((Arr.map_iff.mp hb).goGet2 hi hj) fun d hd => ?_
  refine Go.Ok.bind (hop i j _ d hi hj h3 hd) fun x hx => ?_
  obtain ⟨h5, p, rfl⟩ := hx
  exact Go.ok_pure h5

/-- `Polynomial.Plus` on a matrix. -/
theorem Poly.plus_mat_ok (hr : 0 < r) (hc : 0 < c) {p : Poly R} (hp : p.check = .ok ())
    (hb : MArr r c Qb b) (hcb : ∀ i j x, Qb i j x → x.check = .ok ())
    (hS : ∀ i j, i < r → j < c → Stable (Q i j))
    (hop : ∀ i j x, i < r → j < c → Qb i j x → Go.Ok (p.plus x) (Q i j)) :
    Go.Ok (p.plusExpr (.m b)) (fun e => EArr r c Q e ∧ MKind r c e) := by
  unfold Poly.plusExpr
  simp only [hp, hb.check hr hcb, hb.dims hr hcb, Go.ok_bind]
  by_cases h1 : r = 1 ∧ c = 1
  · obtain ⟨rfl, rfl⟩ := h1
    simp only [and_self, if_true]
    refine Go.Ok.bind (hb.at hcb (i := 0) (j := 0) hr hc) fun x hx => ?_
    refine Go.Ok.bind (hop 0 0 x hr hc hx) fun y hy => ?_
    exact simp_m hr hS ⟨earr_s hy, fun _ => ⟨_, rfl⟩, fun h => absurd rfl h.1, fun h => absurd rfl h⟩
  · simp only [if_neg h1]
    refine Go.Ok.bind (Arr.mapRange (Q' := Q) r c fun i j hi hj => ?_) fun g hg =>
      Go.Ok.bind (concretizeM_ok hg hr hc hS) fun _ he => simp_m hr hS he
    exact Go.Ok.bind (hb.at hcb hi hj) fun x hx => hop _ _ x hi hj hx

/-! ## Matrix Multiply -/

/-- The loop that computes one entry of a product: `I i j k` is what holds of the partial sum of the
first `k` products. -/
theorem mulEntry_ok {s : ℕ} (ha : MArr r s Qa a)
    (hca : ∀ i j x, Qa i j x → x.check = .ok ()) (hb : MArr s c Qb b)
    (hcb : ∀ i j x, Qb i j x → x.check = .ok ()) {i j : ℕ} (hi : i < r) (hj : j < c)
    {I : ℕ → Scalar R → Prop} (h0 : I 0 (.k zero)) (hSt : Stable (I s))
    (hop : ∀ k acc x y, k < s → I k acc → Qa i k x → Qb k j y →
      Go.Ok (x.mul y) (fun t => Go.Ok (acc.plus t) (I (k + 1)))) :
    Go.Ok (mulEntry a b s i j) (I s) := by
  unfold mulEntry
  refine Go.Ok.bind (LArr.foldlM (I := I) (LArr.range s) h0 fun k acc k' hk hacc hk' => ?_)
    fun x hx => hSt.simp x hx
  subst hk'
  refine Go.Ok.bind (ha.at hca hi hk) fun x hx => ?_
  refine Go.Ok.bind (hb.at hcb hk hj) fun y hy => ?_
  exact Go.Ok.bind (hop _ acc x y hk hacc hx hy) fun t ht => ht

theorem matMulTemplate_ok {s : ℕ} (hr : 0 < r) (hs : 0 < s) (hc : 0 < c) (ha : MArr r s Qa a)
    (hca : ∀ i j x, Qa i j x → x.check = .ok ()) (hb : MArr s c Qb b)
    (hcb : ∀ i j x, Qb i j x → x.check = .ok ()) {I : ℕ → ℕ → ℕ → Scalar R → Prop}
    (h0 : ∀ i j, i < r → j < c → I i j 0 (.k zero))
    (hSt : ∀ i j, i < r → j < c → Stable (I i j s))
    (hop : ∀ i j k acc x y, i < r → j < c → k < s → I i j k acc → Qa i k x → Qb k j y →
      Go.Ok (x.mul y) (fun t => Go.Ok (acc.plus t) (I i j (k + 1)))) :
    Go.Ok (matMulTemplate a b) (fun e => EArr r c (fun i j => I i j s) e ∧ MKind r c e) := by
  unfold matMulTemplate
  simp only [ha.check hr hca, hb.check hs hcb, ha.dims hr hca, hb.dims hs hcb, Go.ok_bind,
    ne_eq, not_true, if_false]
  show Go.Ok ((List.range r).mapM (fun (i : ℕ) => (List.range c).mapM (fun (j : ℕ) =>
    mulEntry a b s i j)) >>= concretizeM) _
  refine Go.Ok.bind (Arr.mapRange (Q' := fun i j => I i j s) r c fun i j hi hj => ?_) fun g hg =>
    concretizeM_ok hg hr hc hSt
  exact mulEntry_ok ha hca hb hcb hi hj (h0 i j hi hj) (hSt i j hi hj)
    fun k acc x y => hop i j k acc x y hi hj

/-- `Multiply` of two matrices of any kinds with matching inner dimension. -/
theorem Mat.mul_mat_ok {s : ℕ} (hr : 0 < r) (hs : 0 < s) (hc : 0 < c) (ha : MArr r s Qa a)
    (hca : ∀ i j x, Qa i j x → x.check = .ok ()) (hb : MArr s c Qb b)
    (hcb : ∀ i j x, Qb i j x → x.check = .ok ()) {I : ℕ → ℕ → ℕ → Scalar R → Prop}
    (h0 : ∀ i j, i < r → j < c → I i j 0 (.k zero))
    (hSt : ∀ i j, i < r → j < c → Stable (I i j s))
    (hop : ∀ i j k acc x y, i < r → j < c → k < s → I i j k acc → Qa i k x → Qb k j y →
      Go.Ok (x.mul y) (fun t => Go.Ok (acc.plus t) (I i j (k + 1)))) :
    Go.Ok (a.mul (.m b)) (fun e => EArr r c (fun i j => I i j s) e ∧ MKind r c e) := by
  have key := matMulTemplate_ok hr hs hc ha hca hb hcb h0 hSt hop
  cases a with
  | k rows =>
    unfold Mat.mul kmMul
    simp only [Expr.check, hb.check hs hcb, (Arr.map_iff.mp ha).rowDims hr, Expr.dims, hb.dims hs hcb,
      Go.ok_bind, checkDimMul_inner]
    exact Go.Ok.bind key fun e he => simp_m hr hSt he
  | v rows =>
    unfold Mat.mul vmMul
    simp only [ha.check hr hca, Expr.check, hb.check hs hcb, (Arr.map_iff.mp ha).rowDims hr, Expr.dims,
      hb.dims hs hcb, Go.ok_bind, checkDimMul_inner]
    exact Go.Ok.bind key fun e he => simp_m hr hSt he
  | m rows =>
    unfold Mat.mul mmMul
    simp only [ha.check hr hca, Expr.check, hb.check hs hcb, (Arr.map_iff.mp ha).rowDims hr, Expr.dims,
      hb.dims hs hcb, Go.ok_bind, checkDimMul_inner]
    exact key
  | p rows =>
    unfold Mat.mul pmMul
    simp only [ha.check hr hca, Expr.check, hb.check hs hcb, (Arr.map_iff.mp ha).rowDims hr, Expr.dims,
      hb.dims hs hcb, Go.ok_bind, checkDimMul_inner]
    exact key

end

end Verif
