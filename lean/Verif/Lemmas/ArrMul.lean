import Verif.Lemmas.ArrOps

/-!
# Products of matrices with vectors and scalars, entry by entry
-/

namespace Verif

open GoNum

variable {R : Type} [GoNum R] {n r c k : ℕ}

theorem Stable.and_const {Q : Scalar R → Prop} (h : Stable Q) {p : Prop} (hp : p) :
    Stable (fun x => p ∧ Q x) where
  check a ha := h.check a ha.2
  poly a ha := ⟨hp, h.poly a ha.2⟩
  mono a m ha hm := ⟨hp, h.mono a m ha.2 hm⟩
  simp a ha := (h.simp a ha.2).mono fun _ hx => ⟨hp, hx⟩

/-! ## Adding columns -/

section
variable {Qa Qb Q : ℕ → Scalar R → Prop} {a b : Expr R}

/-- `Plus` of two expressions with `n` rows and one column, each a scalar if `n = 1` and a vector
otherwise. -/
theorem Expr.plus_col_ok (hn : 0 < n) (ha : EArr n 1 (fun i _ => Qa i) a) (hka : VKind n a)
    (hca : ∀ i x, Qa i x → x.check = .ok ())
    (hb : EArr n 1 (fun i _ => Qb i) b) (hkb : VKind n b) (hcb : ∀ i x, Qb i x → x.check = .ok ())
    (hS : ∀ i, i < n → Stable (Q i))
    (hop : ∀ i x y, i < n → Qa i x → Qb i y → Go.Ok (x.plus y) (Q i)) :
    Go.Ok (a.plus b) (fun e => EArr n 1 (fun i _ => Q i) e ∧ VKind n e) := by
  by_cases h1 : n = 1
  · subst h1
    obtain ⟨x, rfl⟩ := hka.1 rfl
    obtain ⟨y, rfl⟩ := hkb.1 rfl
    refine Go.Ok.bind (hop 0 x y hn (earr_s_iff.mp ha) (earr_s_iff.mp hb)) fun z hz => ?_
    exact Go.ok_pure ⟨earr_s hz, fun _ => ⟨_, rfl⟩, fun h => absurd rfl h⟩
  · obtain ⟨x, rfl⟩ := hka.2 h1
    obtain ⟨y, rfl⟩ := hkb.2 h1
    exact Vec.plus_vec_ok hn (earr_v_iff.mp ha) hca (earr_v_iff.mp hb) hcb hS hop

/-- `K(0).Plus` of such an expression. -/
theorem Expr.k_plus_col_ok (hn : 0 < n) {d : R}
    (hb : EArr n 1 (fun i _ => Qb i) b) (hkb : VKind n b) (hcb : ∀ i x, Qb i x → x.check = .ok ())
    (hS : ∀ i, i < n → Stable (Q i))
    (hop : ∀ i y, i < n → Qb i y → Go.Ok ((Scalar.k d).plus y) (Q i) ∧ Go.Ok (y.plus (.k d)) (Q i)) :
    Go.Ok (Expr.plus (.s (.k d)) b) (fun e => EArr n 1 (fun i _ => Q i) e ∧ VKind n e) := by
  by_cases h1 : n = 1
  · subst h1
    obtain ⟨y, rfl⟩ := hkb.1 rfl
    refine Go.Ok.bind (hop 0 y hn (earr_s_iff.mp hb)).1 fun z hz => ?_
    exact Go.ok_pure ⟨earr_s hz, fun _ => ⟨_, rfl⟩, fun h => absurd rfl h⟩
  · obtain ⟨y, rfl⟩ := hkb.2 h1
    have hv := earr_v_iff.mp hb
    show Go.Ok (y.check >>= fun _ => y.plus (.s (.k d))) _
    rw [hv.check hn hcb, Go.ok_bind]
    exact Vec.plus_scalar_ok hn hv hcb rfl hS fun i x hi hx => (hop i x hi hx).2

end

/-! ## Matrix times vector -/

section
variable {Qa : ℕ → ℕ → Scalar R → Prop} {Qb : ℕ → Scalar R → Prop}

/-- One row of constants times a vector of variables. -/
theorem kmMul_vec_one_ok (hc : 0 < c) {rows : List (List R)} (ha : MArr 1 c Qa (.k rows))
    {l : List (Var R)} (hb : VArr c Qb (.v l)) (hcb : ∀ i x, Qb i x → x.check = .ok ())
    {I : ℕ → Scalar R → Prop} (h0 : I 0 (.k zero)) (hSt : Stable (I c))
    (hop : ∀ k acc x v, k < c → I k acc → Qa 0 k (.k x) → Qb k (.var v) →
      Go.Ok (v.mul (.k x)) (fun t => Go.Ok (acc.plus t) (I (k + 1)))) :
    Go.Ok (kmMul rows (.v (.v l))) (fun e => ∃ s, e = .s s ∧ I c s) := by
  unfold kmMul
  simp only [Expr.check, hb.check hc hcb, (Arr.map_iff.mp ha).rowDims (by decide), Expr.dims,
    hb.dims hc hcb, Go.ok_bind, checkDimMul_inner, if_true]
  refine Go.Ok.bind (LArr.foldlM (I := I) (LArr.zipIdx (LArr.map_iff.mp hb)) h0
    fun k acc vi hk hacc hvi => ?_) fun s hs => ?_
  · obtain ⟨h1, h2⟩ := hvi
    rw [h2]
    refine Go.Ok.bind ((Arr.map_iff.mp ha).goGet2 (i := 0) (by decide) hk) fun x hx => ?_
    exact Go.Ok.bind (hop k acc x _ hk hacc hx h1) fun t ht => ht
  · exact Go.Ok.bind (hSt.simp s hs) fun s' hs' => Go.ok_pure ⟨s', rfl, hs'⟩

/-- Several rows of constants times a vector of variables: computed column by column. -/
theorem kmMul_vec_ok (hr : 1 < r) (hc : 0 < c) {rows : List (List R)} (ha : MArr r c Qa (.k rows))
    {l : List (Var R)} (hb : VArr c Qb (.v l)) (hcb : ∀ i x, Qb i x → x.check = .ok ())
    {T : ℕ → ℕ → Scalar R → Prop} {I : ℕ → ℕ → Scalar R → Prop}
    (h0 : ∀ i, i < r → I i 0 (.k zero))
    (hT : ∀ i k, i < r → k < c → Stable (T i k)) (hSt : ∀ i k, i < r → k ≤ c → Stable (I i k))
    (hmul : ∀ i k x v, i < r → k < c → Qa i k (.k x) → Qb k (.var v) →
      Go.Ok ((Scalar.k x).mul (.var v)) (T i k))
    (hadd : ∀ i k acc t, i < r → k < c → I i k acc → T i k t → Go.Ok (acc.plus t) (I i (k + 1))) :
    Go.Ok (kmMul rows (.v (.v l))) (fun e => EArr r 1 (fun i _ => I i c) e ∧ VKind r e) := by
  have hr0 : 0 < r := by omega
  have hne : r ≠ 1 := by omega
  unfold kmMul
  simp only [Expr.check, hb.check hc hcb, (Arr.map_iff.mp ha).rowDims hr0, Expr.dims,
    hb.dims hc hcb, Go.ok_bind, checkDimMul_inner, if_neg hne]
  refine Go.Ok.bind (LArr.foldlM (I := fun k e => EArr r 1 (fun i _ x => i < r ∧ I i k x) e ∧ VKind r e)
    (LArr.range c) ?_ fun k acc k' hk hacc hk' => ?_) fun e he => ?_
  · refine ⟨earr_v_iff.mpr (LArr.map_iff.mpr (LArr.replicate fun i hi => ⟨hi, h0 i hi⟩)), ?_, ?_⟩
    · exact fun h => absurd h hne
    · exact fun _ => ⟨_, rfl⟩
  · subst hk'
    refine Go.Ok.bind (kToDense_ok (Arr.map_iff.mp ha) hr0 hc) fun ks hks => ?_
    refine Go.Ok.bind (LArr.mapM (Q' := fun i x => Qa i k' (.k x)) hks
      fun i row hi hrow => hrow.goGet hk) fun col hcol => ?_
    refine Go.Ok.bind ((LArr.map_iff.mp hb).goGet hk) fun v hv => ?_
    have hvok : v.OK := Var.check_iff.mp (hcb _ _ hv)
    have hcol' : VArr r (fun i x => i < r ∧ ∃ d, x = .k d ∧ Qa i k' (.k d)) (.k col) :=
      LArr.map_iff.mpr (LArr.mono hcol fun i x hi hx => ⟨hi, x, rfl, hx⟩)
    refine Go.Ok.bind (Var.mulVecDense_ok (Q := fun i x => i < r ∧ T i k' x) hr0 hvok hcol' ?_ ?_ ?_)
      fun t ht => ?_
    · rintro i x ⟨-, d, rfl, -⟩; rfl
    · exact fun i hi => (hT i k' hi hk).and_const hi
    · rintro i x hi ⟨-, d, rfl, hd⟩
      exact (hmul i k' d v hi hk hd hv).mono fun z hz => ⟨hi, hz⟩
    · refine Expr.plus_col_ok (Q := fun i x => i < r ∧ I i (k' + 1) x) hr0 hacc.1 hacc.2 ?_ ht.1 ht.2 ?_ ?_ ?_
      · exact fun i x hx => (hSt i k' hx.1 (by omega)).check x hx.2
      · exact fun i x hx => (hT i k' hx.1 hk).check x hx.2
      · exact fun i hi => (hSt i (k' + 1) hi (by omega)).and_const hi
      · exact fun i x y hi hx hy => (hadd i k' x y hi hk hx.2 hy.2).mono fun z hz => ⟨hi, hz⟩
  · refine (simp_v hr0 (fun i hi => (hSt i c hi le_rfl).and_const hi) he).mono fun e he => ⟨?_, he.2⟩
    exact he.1.mono fun i j a hi _ ha => ha.2

/-- `VariableMatrix.Multiply(KVector)`. -/
theorem vmMul_kvec_ok (hr : 0 < r) {rows : List (List (Var R))}
    (ha : MArr r c Qa (.v rows)) (hca : ∀ i j x, Qa i j x → x.check = .ok ())
    {l : List R} (hb : VArr c Qb (.k l)) {I : ℕ → ℕ → Scalar R → Prop}
    (h0 : ∀ i, i < r → I i 0 (.k zero)) (hSt : ∀ i, i < r → Stable (I i c))
    (hop : ∀ i k acc v x, i < r → k < c → I i k acc → Qa i k (.var v) → Qb k (.k x) →
      Go.Ok (v.mul (.k x)) (fun t => Go.Ok (acc.plus t) (I i (k + 1)))) :
    Go.Ok (vmMul rows (.v (.k l))) (fun e => EArr r 1 (fun i _ => I i c) e ∧ VKind r e) := by
  have hbd : Vec.dims (.k l) = .ok (c, 1) := by
    have := (LArr.map_iff.mp hb).1
    simp [Vec.dims, Vec.len, Go.pure_eq, Go.ok_bind, this]
  unfold vmMul
  simp only [ha.check hr hca, Expr.check, Vec.check, Go.pure_eq, (Arr.map_iff.mp ha).rowDims hr,
    Expr.dims, hbd, Go.ok_bind, checkDimMul_inner]
  refine Go.Ok.bind (LArr.mapM (Q' := fun i => I i c) (Arr.map_iff.mp ha) fun i row hi hrow => ?_)
    fun g hg => Go.Ok.bind (concretizeV_ok' hg hr hSt) fun e he => simp_v hr hSt he
  refine LArr.foldlM (I := fun k => I i k) (LArr.zipIdx hrow) (h0 i hi) fun k acc xk hk hacc hxk => ?_
  obtain ⟨h1, h2⟩ := hxk
  rw [h2]
  refine Go.Ok.bind ((LArr.map_iff.mp hb).goGet hk) fun d hd => ?_
  exact Go.Ok.bind (hop i k acc _ d hi hk hacc h1 hd) fun t ht => ht

/-- `VariableMatrix.Multiply(VariableVector)`: computed column by column, starting from `K(0)`. -/
theorem vmMul_vec_ok (hr : 0 < r) (hc : 0 < c) {rows : List (List (Var R))}
    (ha : MArr r c Qa (.v rows)) (hca : ∀ i j x, Qa i j x → x.check = .ok ())
    {l : List (Var R)} (hb : VArr c Qb (.v l)) (hcb : ∀ i x, Qb i x → x.check = .ok ())
    {T : ℕ → ℕ → Scalar R → Prop} {I : ℕ → ℕ → Scalar R → Prop}
    (hT : ∀ i k, i < r → k < c → Stable (T i k)) (hSt : ∀ i k, i < r → k ≤ c → Stable (I i k))
    (hmul : ∀ i k x v, i < r → k < c → Qa i k (.var x) → Qb k (.var v) →
      Go.Ok ((Scalar.var x).mul (.var v)) (T i k))
    (hadd0 : ∀ i t, i < r → T i 0 t → Go.Ok ((Scalar.k zero).plus t) (I i 1) ∧
      Go.Ok (t.plus (.k zero)) (I i 1))
    (hadd : ∀ i k acc t, i < r → k < c → I i k acc → T i k t → Go.Ok (acc.plus t) (I i (k + 1))) :
    Go.Ok (vmMul rows (.v (.v l))) (fun e => EArr r 1 (fun i _ => I i c) e ∧ VKind r e) := by
  unfold vmMul
  simp only [ha.check hr hca, Expr.check, hb.check hc hcb, (Arr.map_iff.mp ha).rowDims hr,
    Expr.dims, hb.dims hc hcb, Go.ok_bind, checkDimMul_inner]
  refine Go.Ok.bind (LArr.foldlM (I := fun k e => (k = 0 → e = .s (.k zero)) ∧ (k ≠ 0 →
    EArr r 1 (fun i _ x => i < r ∧ I i k x) e ∧ VKind r e))
    (LArr.range c) ⟨fun _ => rfl, fun h => absurd rfl h⟩ fun k acc k' hk hacc hk' => ?_) fun e he => ?_
  · subst hk'
    refine Go.Ok.bind (LArr.mapM (Q' := fun i x => Qa i k' (.var x)) (Arr.map_iff.mp ha)
      fun i row hi hrow => hrow.goGet hk) fun col hcol => ?_
    refine Go.Ok.bind ((LArr.map_iff.mp hb).goGet hk) fun v hv => ?_
    have hcol' : VArr r (fun i x => ∃ d, x = .var d ∧ Qa i k' (.var d)) (.v col) :=
      LArr.map_iff.mpr (LArr.mono hcol fun i x hi hx => ⟨x, rfl, hx⟩)
    refine Go.Ok.bind (Vec.mulScalar_ok (Q := fun i x => i < r ∧ T i k' x) hr hcol' ?_ (hcb _ _ hv) ?_ ?_ ?_)
      fun t ht => ?_
    · rintro i x ⟨d, rfl, hd⟩; exact hca _ _ _ hd
    · rintro ⟨l, h⟩; cases h
    · exact fun i hi => (hT i k' hi hk).and_const hi
    · rintro i x hi ⟨d, rfl, hd⟩
      exact (hmul i k' d v hi hk hd hv).mono fun z hz => ⟨hi, hz⟩
    · refine Go.Ok.mono (P := fun e => EArr r 1 (fun i _ x => i < r ∧ I i (k' + 1) x) e ∧ VKind r e) ?_
        fun e he => ⟨fun h => by omega, fun _ => he⟩
      by_cases hk0 : k' = 0
      · subst hk0
        rw [hacc.1 rfl]
        refine Expr.k_plus_col_ok (Q := fun i x => i < r ∧ I i 1 x) hr ht.1 ht.2 ?_ ?_ ?_
        · exact fun i x hx => (hT i 0 hx.1 hk).check x hx.2
        · exact fun i hi => (hSt i 1 hi (by omega)).and_const hi
        · exact fun i y hi hy => ⟨((hadd0 i y hi hy.2).1).mono fun z hz => ⟨hi, hz⟩,
            ((hadd0 i y hi hy.2).2).mono fun z hz => ⟨hi, hz⟩⟩
      · have hacc := hacc.2 hk0
        refine Expr.plus_col_ok (Q := fun i x => i < r ∧ I i (k' + 1) x) hr hacc.1 hacc.2 ?_ ht.1 ht.2 ?_ ?_ ?_
        · exact fun i x hx => (hSt i k' hx.1 (by omega)).check x hx.2
        · exact fun i x hx => (hT i k' hx.1 hk).check x hx.2
        · exact fun i hi => (hSt i (k' + 1) hi (by omega)).and_const hi
        · exact fun i x y hi hx hy => (hadd i k' x y hi hk hx.2 hy.2).mono fun z hz => ⟨hi, hz⟩
  · have he := he.2 (by omega)
    refine (simp_v hr (fun i hi => (hSt i c hi le_rfl).and_const hi) he).mono fun e he => ⟨?_, he.2⟩
    exact he.1.mono fun i j a hi _ ha => ha.2

/-- One row of monomials times a vector of variables. -/
theorem mmMul_vec_one_ok (hc : 0 < c) {rows : List (List (Mono R))} (ha : MArr 1 c Qa (.m rows))
    (hca : ∀ i j x, Qa i j x → x.check = .ok ())
    {l : List (Var R)} (hb : VArr c Qb (.v l)) (hcb : ∀ i x, Qb i x → x.check = .ok ())
    {I : ℕ → Scalar R → Prop} (h0 : I 0 (.k zero)) (hSt : Stable (I c))
    (hop : ∀ k acc x v, k < c → I k acc → Qa 0 k (.mono x) → Qb k (.var v) →
      Go.Ok (x.mul (.var v)) (fun t => Go.Ok (acc.plus t) (I (k + 1)))) :
    Go.Ok (mmMul rows (.v (.v l))) (fun e => ∃ s, e = .s s ∧ I c s) := by
  unfold mmMul
  simp only [ha.check (by decide) hca, Expr.check, hb.check hc hcb,
    (Arr.map_iff.mp ha).rowDims (by decide), Expr.dims,
    hb.dims hc hcb, Go.ok_bind, checkDimMul_inner, if_true]
  refine Go.Ok.bind (LArr.goGet (Arr.map_iff.mp ha) (i := 0) (by decide)) fun row hrow => ?_
  refine Go.Ok.bind (LArr.foldlM (I := I) (LArr.zipIdx hrow) h0
    fun k acc vi hk hacc hvi => ?_) fun s hs => ?_
  · obtain ⟨h1, h2⟩ := hvi
    rw [h2]
    refine Go.Ok.bind ((LArr.map_iff.mp hb).goGet hk) fun v hv => ?_
    exact Go.Ok.bind (hop k acc _ v hk hacc h1 hv) fun t ht => ht
  · exact Go.Ok.bind (hSt.simp s hs) fun s' hs' => Go.ok_pure ⟨s', rfl, hs'⟩

/-- Several rows of monomials times a vector of variables, when every partial sum of at least two
products is a `Polynomial`. -/
theorem mmMul_vec_ok (hr : 1 < r) (hc : 0 < c) {rows : List (List (Mono R))}
    (ha : MArr r c Qa (.m rows)) (hca : ∀ i j x, Qa i j x → x.check = .ok ())
    {l : List (Var R)} (hb : VArr c Qb (.v l)) (hcb : ∀ i x, Qb i x → x.check = .ok ())
    {I : ℕ → ℕ → Scalar R → Prop} (hSt : ∀ i, i < r → Stable (I i c))
    (hop0 : ∀ i x v, i < r → Qa i 0 (.mono x) → Qb 0 (.var v) →
      Go.Ok (x.toPoly.mul (.var v)) (I i 1))
    (hop : ∀ i k acc x v, i < r → k + 1 < c → I i (k + 1) acc → Qa i (k + 1) (.mono x) →
      Qb (k + 1) (.var v) → Go.Ok (x.toPoly.mul (.var v)) (fun t => Go.Ok (acc.plus t)
        (fun s => I i (k + 2) s ∧ ∃ p, s = .poly p))) :
    Go.Ok (mmMul rows (.v (.v l))) (fun e => EArr r 1 (fun i _ => I i c) e ∧ VKind r e) := by
  have hr0 : 0 < r := by omega
  have hne : r ≠ 1 := by omega
  unfold mmMul
  simp only [ha.check hr0 hca, Expr.check, hb.check hc hcb, (Arr.map_iff.mp ha).rowDims hr0,
    Expr.dims, hb.dims hc hcb, Go.ok_bind, checkDimMul_inner, if_neg hne]
  refine Go.Ok.bind (LArr.mapM (Q' := fun i => I i c) (Arr.map_iff.mp ha) fun i row hi hrow => ?_)
    fun g hg => Go.Ok.bind (concretizeVec_ok hg hr0 hSt) fun v hv =>
      Go.ok_pure ⟨earr_v_iff.mpr hv, fun h => absurd h hne, fun _ => ⟨_, rfl⟩⟩
  unfold mmRowMul
  refine Go.Ok.bind (hrow.goGet (i := 0) hc) fun m0 hm0 => ?_
  refine Go.Ok.bind ((LArr.map_iff.mp hb).goGet (i := 0) hc) fun v0 hv0 => ?_
  refine Go.Ok.bind (hop0 i m0 v0 hi hm0 hv0) fun init hinit => ?_
  obtain ⟨c', rfl⟩ : ∃ c', c = c' + 1 := ⟨c - 1, by omega⟩
  have hdrop : LArr c' (fun k (mj : Mono R × ℕ) => Qa i (k + 1) (.mono mj.1) ∧ mj.2 = k + 1)
      (row.zipIdx.drop 1) := by
    have hz := LArr.zipIdx hrow
    cases hz0 : row.zipIdx with
    | nil => rw [hz0] at hz; exact absurd hz.1 (by simp)
    | cons a t =>
      rw [hz0] at hz
      exact (LArr.cons_iff.mp hz).2
  refine LArr.foldlM (I := fun k => I i (k + 1)) hdrop hinit fun k acc mj hk hacc hmj => ?_
  obtain ⟨h1, h2⟩ := hmj
  rw [h2]
  refine Go.Ok.bind ((LArr.map_iff.mp hb).goGet (i := k + 1) (by omega)) fun v hv => ?_
  refine Go.Ok.bind (hop i k acc _ v hi (by omega) hacc h1 hv) fun t ht => ?_
  refine Go.Ok.bind ht fun s hs => ?_
  obtain ⟨hI, p, rfl⟩ := hs
  exact Go.ok_pure hI

/-- `PolynomialMatrix.Multiply(VariableVector)`. -/
theorem pmMul_vec_ok (hr : 0 < r) (hc : 0 < c) {rows : List (List (Poly R))}
    (ha : MArr r c Qa (.p rows)) (hca : ∀ i j x, Qa i j x → x.check = .ok ())
    {l : List (Var R)} (hb : VArr c Qb (.v l)) (hcb : ∀ i x, Qb i x → x.check = .ok ())
    {I : ℕ → ℕ → Scalar R → Prop}
    (h0 : ∀ i, i < r → I i 0 (.k zero)) (hSt : ∀ i, i < r → Stable (I i c))
    (hop : ∀ i k acc p v, i < r → k < c → I i k acc → Qa i k (.poly p) → Qb k (.var v) →
      Go.Ok (p.mul (.var v)) (fun t => Go.Ok (acc.plus t) (I i (k + 1)))) :
    Go.Ok (pmMul rows (.v (.v l))) (fun e => EArr r 1 (fun i _ => I i c) e ∧ VKind r e) := by
  unfold pmMul
  simp only [ha.check hr hca, Expr.check, hb.check hc hcb, (Arr.map_iff.mp ha).rowDims hr,
    Expr.dims, hb.dims hc hcb, Go.ok_bind, checkDimMul_inner]
  refine Go.Ok.bind (LArr.mapM (Q' := fun i => I i c) (Arr.map_iff.mp ha) fun i row hi hrow => ?_)
    fun g hg => ?_
  · refine LArr.foldlM (I := fun k => I i k) (LArr.zipIdx hrow) (h0 i hi)
      fun k acc pj hk hacc hpj => ?_
    obtain ⟨h1, h2⟩ := hpj
    rw [h2]
    refine Go.Ok.bind ((LArr.map_iff.mp hb).goGet hk) fun v hv => ?_
    exact Go.Ok.bind (hop i k acc _ v hi hk hacc h1 hv) fun t ht => ht
  · by_cases h1 : r = 1
    · subst h1
      rw [if_pos rfl]
      refine Go.Ok.bind (LArr.goGet hg (i := 0) hr) fun s hs => ?_
      refine Go.Ok.bind ((hSt 0 hr).simp s hs) fun s' hs' => ?_
      exact Go.ok_pure ⟨earr_s hs', fun _ => ⟨_, rfl⟩, fun h => absurd rfl h⟩
    · rw [if_neg h1]
      exact concretizeV_ok' hg hr hSt

end

/-! ## Matrix times scalar -/

section
variable {Qa Q : ℕ → ℕ → Scalar R → Prop}

theorem kmMul_k_ok (hr : 0 < r) (hc : 0 < c) {rows : List (List R)} (ha : MArr r c Qa (.k rows))
    (d : R) (hop : ∀ i j x, i < r → j < c → Qa i j (.k x) → Q i j (.k (mul d x))) :
    Go.Ok (kmMul rows (.s (.k d))) (fun e => EArr r c Q e ∧ ∃ m, e = .m (.k m)) := by
  unfold kmMul
  simp only [Expr.check, Scalar.check, (Arr.map_iff.mp ha).rowDims hr, Expr.dims, Go.pure_eq,
    Go.ok_bind, checkDimMul_right]
  refine Go.Ok.bind (kToDense_ok (Arr.map_iff.mp ha) hr hc) fun ks hks => ?_
  exact ⟨_, rfl, earr_m_iff.mpr (Arr.map_iff.mpr (hks.map fun i j x hi hj hx => hop i j x hi hj hx)),
    _, rfl⟩

theorem kmMul_poly_ok (hr : 0 < r) (hc : 0 < c) {rows : List (List R)} (ha : MArr r c Qa (.k rows))
    {p : Poly R} (hp : p.check = .ok ()) (hS : ∀ i j, i < r → j < c → Stable (Q i j))
    (hop : ∀ i j x, i < r → j < c → Qa i j (.k x) → Go.Ok ((kToPoly x).mul (.poly p)) (Q i j)) :
    Go.Ok (kmMul rows (.s (.poly p))) (fun e => EArr r c Q e ∧ MKind r c e) := by
  unfold kmMul
  simp only [Expr.check, Scalar.check, hp, (Arr.map_iff.mp ha).rowDims hr, Expr.dims, Go.pure_eq,
    Go.ok_bind, checkDimMul_right]
  refine Go.Ok.bind (Arr.mapRange (Q' := Q) r c fun i j hi hj => ?_) fun g hg =>
    Go.Ok.bind (concretizeM_ok hg hr hc hS) fun e he => simp_m hr hS he
  exact Go.Ok.bind ((Arr.map_iff.mp ha).goGet2 hi hj) fun x hx => hop i j x hi hj hx

/-- `VariableMatrix.Multiply(K)`, when every product is a `Monomial`. -/
theorem vmMul_k_ok (hr : 0 < r) {rows : List (List (Var R))} (ha : MArr r c Qa (.v rows))
    (hca : ∀ i j x, Qa i j x → x.check = .ok ()) {d : R} (hS : ∀ i j, i < r → j < c → Stable (Q i j))
    (hop : ∀ i j v, i < r → j < c → Qa i j (.var v) →
      Go.Ok (v.mul (.k d)) (fun x => Q i j x ∧ ∃ m, x = .mono m)) :
    Go.Ok (vmMul rows (.s (.k d))) (fun e => EArr r c Q e ∧ ∃ m, e = .m m) := by
  unfold vmMul
  simp only [ha.check hr hca, Expr.check, Scalar.check, (Arr.map_iff.mp ha).rowDims hr, Expr.dims,
    Go.pure_eq, Go.ok_bind, checkDimMul_right]
  refine Go.Ok.bind (Arr.mapM (Q' := fun i j m => Q i j (.mono m)) (Arr.map_iff.mp ha)
    fun i j v hi hj hv => ?_) fun g hg => ?_
  · refine Go.Ok.bind (hop i j v hi hj hv) fun x hx => ?_
    obtain ⟨h1, m, rfl⟩ := hx
    exact Go.ok_pure h1
  · have : EArr r c Q (.m (.m g)) := earr_m_iff.mpr (Arr.map_iff.mpr hg)
    exact (this.asSimplified hr hS).mono fun e he => ⟨he.1, he.2.2.2 ⟨_, rfl⟩⟩

theorem mmMul_k_ok (hr : 0 < r) {rows : List (List (Mono R))} (ha : MArr r c Qa (.m rows))
    (hca : ∀ i j x, Qa i j x → x.check = .ok ()) {d : R}
    (hop : ∀ i j m, i < r → j < c → Qa i j (.mono m) → Q i j (.mono (m.mulK d))) :
    Go.Ok (mmMul rows (.s (.k d))) (fun e => EArr r c Q e ∧ ∃ m, e = .m m) := by
  unfold mmMul
  simp only [ha.check hr hca, Expr.check, Scalar.check, (Arr.map_iff.mp ha).rowDims hr, Expr.dims,
    Go.pure_eq, Go.ok_bind, checkDimMul_right]
  exact ⟨_, rfl, earr_m_iff.mpr (Arr.map_iff.mpr ((Arr.map_iff.mp ha).map hop)), _, rfl⟩

theorem pmMul_k_ok (hr : 0 < r) (hc : 0 < c) {rows : List (List (Poly R))}
    (ha : MArr r c Qa (.p rows)) (hca : ∀ i j x, Qa i j x → x.check = .ok ()) {d : R}
    (hS : ∀ i j, i < r → j < c → Stable (Q i j))
    (hop : ∀ i j p, i < r → j < c → Qa i j (.poly p) → Go.Ok (p.mul (.k d)) (Q i j)) :
    Go.Ok (pmMul rows (.s (.k d))) (fun e => EArr r c Q e ∧ MKind r c e) := by
  unfold pmMul
  simp only [ha.check hr hca, Expr.check, Scalar.check, (Arr.map_iff.mp ha).rowDims hr, Expr.dims,
    Go.pure_eq, Go.ok_bind, checkDimMul_right]
  exact Go.Ok.bind (Arr.mapM (Arr.map_iff.mp ha) hop) fun g hg =>
    Go.Ok.bind (concretizeM_ok hg hr hc hS) fun e he => simp_m hr hS he

end

/-! ## Minus -/

section
variable {Qa Qb T Q : ℕ → Scalar R → Prop} {a b : Vec R}

/-- A vector plus an expression of the same number of rows. -/
theorem Vec.plus_col_ok {e : Expr R} (hn : 0 < n) (ha : VArr n Qa a)
    (hca : ∀ i x, Qa i x → x.check = .ok ())
    (he : EArr n 1 (fun i _ => Qb i) e) (hk : VKind n e) (hcb : ∀ i x, Qb i x → x.check = .ok ())
    (hS : ∀ i, i < n → Stable (Q i))
    (hop : ∀ i x y, i < n → Qa i x → Qb i y → Go.Ok (x.plus y) (Q i)) :
    Go.Ok (a.plus e) (fun e => EArr n 1 (fun i _ => Q i) e ∧ VKind n e) := by
  by_cases h1 : n = 1
  · subst h1
    obtain ⟨y, rfl⟩ := hk.1 rfl
    have hy := earr_s_iff.mp he
    refine Vec.plus_scalar_ok hn ha hca (hcb _ _ hy) hS fun i x hi hx => ?_
    obtain rfl : i = 0 := by omega
    exact hop 0 x y hi hx hy
  · obtain ⟨y, rfl⟩ := hk.2 h1
    exact Vec.plus_vec_ok hn ha hca (earr_v_iff.mp he) hcb hS hop

/-- `Multiply(float64)` of a vector. -/
theorem Vec.mulF64_ok {d : R} (hn : 0 < n) (ha : VArr n Qa a) (hca : ∀ i x, Qa i x → x.check = .ok ())
    (hS : ∀ i, i < n → Stable (Q i)) (hop : ∀ i x, i < n → Qa i x → Go.Ok (x.mul (.k d)) (Q i)) :
    Go.Ok ((Expr.v a).mulF64 d) (fun e => EArr n 1 (fun i _ => Q i) e ∧ VKind n e) := by
  have key := Vec.mulScalar_ok hn ha hca (s := .k d) rfl (fun _ => Or.inl ⟨d, rfl⟩) hS hop
  cases a with
  | v l => exact key
  | k l => exact Go.Ok.bind key fun e he => simp_v hn hS he
  | m l => exact Go.Ok.bind key fun e he => simp_v hn hS he
  | p l => exact Go.Ok.bind key fun e he => simp_v hn hS he

/-- `Multiply(float64)` of a scalar. -/
theorem Scalar.mulF64_ok {s : Scalar R} {d : R} {q : Scalar R → Prop} (hq : Stable q)
    (hop : Go.Ok (s.mul (.k d)) q) : Go.Ok ((Expr.s s).mulF64 d) (fun e => ∃ t, e = .s t ∧ q t) := by
  cases s with
  | k c =>
    obtain ⟨t, h1, h2⟩ := hop
    simp only [Scalar.mul, kMul, Scalar.check, Go.pure_eq, Go.ok_bind, Except.ok.injEq] at h1
    subst h1
    exact Go.ok_pure ⟨_, rfl, h2⟩
  | mono m => exact Go.Ok.bind hop fun t ht => Go.ok_pure ⟨t, rfl, ht⟩
  | var v =>
    show Go.Ok ((Expr.mul (.s (.var v)) (.s (.k d))) >>= Expr.asSimplified) _
    refine Go.Ok.bind (P := fun e => ∃ t, e = .s t ∧ q t)
      (Go.Ok.bind hop fun t ht => Go.ok_pure ⟨t, rfl, ht⟩) ?_
    rintro e ⟨t, rfl, ht⟩
    exact Go.Ok.bind (hq.simp t ht) fun t' ht' => Go.ok_pure ⟨t', rfl, ht'⟩
  | poly p =>
    show Go.Ok ((Expr.mul (.s (.poly p)) (.s (.k d))) >>= Expr.asSimplified) _
    refine Go.Ok.bind (P := fun e => ∃ t, e = .s t ∧ q t)
      (Go.Ok.bind hop fun t ht => Go.ok_pure ⟨t, rfl, ht⟩) ?_
    rintro e ⟨t, rfl, ht⟩
    exact Go.Ok.bind (hq.simp t ht) fun t' ht' => Go.ok_pure ⟨t', rfl, ht'⟩

/-- `Minus` of two vectors of the same length. -/
theorem Vec.minus_vec_ok (hn : 0 < n) (ha : VArr n Qa a) (hca : ∀ i x, Qa i x → x.check = .ok ())
    (hb : VArr n Qb b) (hcb : ∀ i x, Qb i x → x.check = .ok ()) (hT : ∀ i, i < n → Stable (T i))
    (hS : ∀ i, i < n → Stable (Q i))
    (hneg : ∀ i x, i < n → Qb i x → Go.Ok (x.mul (.k negOne)) (T i))
    (hop : ∀ i x y, i < n → Qa i x → T i y → Go.Ok (x.plus y) (Q i)) :
    Go.Ok ((Expr.v a).minus (.v b)) (fun e => EArr n 1 (fun i _ => Q i) e ∧ VKind n e) := by
  have key : Go.Ok ((Expr.v a).minusGen (.v b)) (fun e => EArr n 1 (fun i _ => Q i) e ∧ VKind n e) := by
    refine Go.Ok.bind (Vec.mulF64_ok (Q := fun i x => i < n ∧ T i x) hn hb hcb
      (fun i hi => (hT i hi).and_const hi)
      fun i x hi hx => (hneg i x hi hx).mono fun _ h => ⟨hi, h⟩) fun e he => ?_
    exact Vec.plus_col_ok hn ha hca he.1 he.2 (fun i x hx => (hT i hx.1).check x hx.2) hS
      fun i x y hi hx hy => hop i x y hi hx hy.2
  have hca' := ha.check hn hca
  have had := ha.dims hn hca
  have hcb' := hb.check hn hcb
  have hbd := hb.dims hn hcb
  cases a with
  | k l =>
    have hl : l.length = n := by have := ha.1; simpa [Vec.entries] using this
    show Go.Ok (do
      (Expr.v b).check
      checkDimAdd (l.length, 1) (← (Expr.v b).dims)
      (Expr.v (.k l)).minusGen (.v b)) _
    simp only [Expr.check, Expr.dims, hcb', hbd, Go.ok_bind, hl, checkDimAdd_same]
    exact key
  | v l =>
    show Go.Ok (do
      (Expr.v (.v l)).check
      (Expr.v b).check
      checkDimAdd (← (Expr.v (.v l)).dims) (← (Expr.v b).dims)
      (Expr.v (.v l)).minusGen (.v b)) _
    simp only [Expr.check, Expr.dims, hca', had, hcb', hbd, Go.ok_bind, checkDimAdd_same]
    exact key
  | m l =>
    show Go.Ok (do
      (Expr.v (.m l)).check
      (Expr.v b).check
      checkDimAdd (← (Expr.v (.m l)).dims) (← (Expr.v b).dims)
      (Expr.v (.m l)).minusGen (.v b)) _
    simp only [Expr.check, Expr.dims, hca', had, hcb', hbd, Go.ok_bind, checkDimAdd_same]
    exact key
  | p l =>
    show Go.Ok (do
      (Expr.v (.p l)).check
      (Expr.v b).check
      checkDimAdd (← (Expr.v (.p l)).dims) (← (Expr.v b).dims)
      (Expr.v (.p l)).minusGen (.v b)) _
    simp only [Expr.check, Expr.dims, hca', had, hcb', hbd, Go.ok_bind, checkDimAdd_same]
    exact key

/-- `Minus` of a vector and a scalar. -/
theorem Vec.minus_scalar_ok (hn : 0 < n) (ha : VArr n Qa a) (hca : ∀ i x, Qa i x → x.check = .ok ())
    {s : Scalar R} (hs : s.check = .ok ()) {q : Scalar R → Prop} (hq : Stable q)
    (hS : ∀ i, i < n → Stable (Q i)) (hneg : Go.Ok (s.mul (.k negOne)) q)
    (hop : ∀ i x y, i < n → Qa i x → q y → Go.Ok (x.plus y) (Q i)) :
    Go.Ok ((Expr.v a).minus (.s s)) (fun e => EArr n 1 (fun i _ => Q i) e ∧ VKind n e) := by
  have key : Go.Ok ((Expr.v a).minusGen (.s s)) (fun e => EArr n 1 (fun i _ => Q i) e ∧ VKind n e) := by
    refine Go.Ok.bind (Scalar.mulF64_ok hq hneg) ?_
    rintro e ⟨t, rfl, ht⟩
    exact Vec.plus_scalar_ok hn ha hca (hq.check t ht) hS fun i x hi hx => hop i x t hi hx ht
  have hca' := ha.check hn hca
  have had := ha.dims hn hca
  cases a with
  | k l =>
    show Go.Ok (do
      (Expr.s s).check
      checkDimAdd (l.length, 1) (← (Expr.s s).dims)
      (Expr.v (.k l)).minusGen (.s s)) _
    simp only [Expr.check, Expr.dims, hs, Go.pure_eq, Go.ok_bind, checkDimAdd_right]
    exact key
  | v l =>
    show Go.Ok (do
      (Expr.v (.v l)).check
      (Expr.s s).check
      checkDimAdd (← (Expr.v (.v l)).dims) (← (Expr.s s).dims)
      (Expr.v (.v l)).minusGen (.s s)) _
    simp only [Expr.check, Expr.dims, hca', had, hs, Go.pure_eq, Go.ok_bind, checkDimAdd_right]
    exact key
  | m l =>
    show Go.Ok (do
      (Expr.v (.m l)).check
      (Expr.s s).check
      checkDimAdd (← (Expr.v (.m l)).dims) (← (Expr.s s).dims)
      (Expr.v (.m l)).minusGen (.s s)) _
    simp only [Expr.check, Expr.dims, hca', had, hs, Go.pure_eq, Go.ok_bind, checkDimAdd_right]
    exact key
  | p l =>
    show Go.Ok (do
      (Expr.v (.p l)).check
      (Expr.s s).check
      checkDimAdd (← (Expr.v (.p l)).dims) (← (Expr.s s).dims)
      (Expr.v (.p l)).minusGen (.s s)) _
    simp only [Expr.check, Expr.dims, hca', had, hs, Go.pure_eq, Go.ok_bind, checkDimAdd_right]
    exact key

end

end Verif
