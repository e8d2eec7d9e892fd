import Verif.Props.Binary
import Verif.Props.MatCon

/-!
# C57 for vectors, matrices and their constraints

At an assignment where the variables take at most one nonzero value, in particular at every 0/1
assignment, whatever the array operations return has the right values, for all well-formed operands of
all kinds.
-/

set_option linter.unusedSectionVars false

namespace Verif

open MvPolynomial

variable {R : Type} {r n c : ℕ}

/-- The IDs of the variables written in `e`. -/
def Expr.IDs (e : Expr R) : Set ℕ := {i | ∃ w, e.Mentions w ∧ w.id = i}

/-- At `ρ` the entries of `e` have the values `A`. -/
def Expr.ValuesAt [CommSemiring R] (ρ : ℕ → R) (e : Expr R) (A : Matrix (Fin r) (Fin c) R) : Prop :=
  e.grid.map (fun row => row.map (Scalar.value ρ)) = List.ofFn fun i => List.ofFn fun j => A i j

variable [Field R] [LinearOrder R] {ρ : ℕ → R} {V : Set ℕ} {P : Var R → Prop}

theorem valuesAt_iff {e : Expr R} {A : Matrix (Fin r) (Fin c) R} :
    e.ValuesAt ρ A ↔ EArr r c (fun i j a => a.value ρ = extM A i j) e := by
  have hof : ∀ g : List (List R),
      g = (List.ofFn fun i => List.ofFn fun j => A i j) ↔ Arr r c (fun i j p => p = extM A i j) g := by
    intro g
    constructor
    · rintro rfl
      exact larr_ofFn fun i => larr_ofFn fun j => (extM_fin A i j).symm
    · intro h
      refine Arr.of_eq h ?_
      refine larr_ofFn fun i => larr_ofFn fun j => ?_
      rintro b rfl
      rw [extM_fin]
  unfold Expr.ValuesAt EArr
  rw [hof, Arr.map_iff]

/-- The values of an array are those of the polynomials it denotes. -/
theorem Expr.Denotes.valuesAt {e : Expr R} {M : Matrix (Fin r) (Fin c) (MvPolynomial ℕ R)}
    (h : e.Denotes M) (ρ : ℕ → R) : e.ValuesAt ρ (M.map (eval ρ)) :=
  valuesAt_iff.mpr ((denotes_iff.mp h).mono fun i j a hi hj ha => by
    rw [extM_of _ hi hj] at ha ⊢
    rw [Matrix.map_apply, ← ha]
    rfl)

theorem Expr.Shape.valuesAt {e : Expr R} (h : e.Shape r c) (ρ : ℕ → R) :
    e.ValuesAt ρ (Matrix.of fun (i : Fin r) (j : Fin c) => (e.entryD i j).value ρ) :=
  h.denotes.valuesAt ρ

/-! ## The abstract meaning -/

theorem stable_goodIm {D : Set (ℕ →₀ ℕ)} (hD : Resp (eval ρ) D) (t : R) :
    Stable (GoodIm (eval ρ) P D t) where
  check _ h := h.1.check
  poly _ h := ⟨good_toPoly h.1, by rw [toPoly_den]; exact h.2⟩
  mono _ _ h hm := ⟨good_toMono h.1 hm, by rw [toMono_den hm]; exact h.2⟩
  simp _ h := Scalar.asSimplified_im hD h

theorem addSem_im (hD : Resp (eval ρ) (overV V)) : AddSem (GoodIm (eval ρ) P (overV V)) where
  stable f := stable_goodIm hD f
  add hx hy := by
    have := Scalar.plus_im hD hx.1 hy.1
    rwa [map_add, hx.2, hy.2] at this
  scale {f d} h := ⟨trivial, by
    rw [← h.2]
    simp [Scalar.den_k]⟩
  num {f g x d} hx hd := ⟨trivial, by
    rw [← hx.2, ← hd.2]
    simp [Scalar.den_k, add_comm]⟩
  cons {f g m p} hm hp := ⟨simplify_cons hm.1 hp.1, ⟨by simp, goodL_cons hm.1 hp.1⟩, by
    rw [← hm.2, ← hp.2, ← map_add]
    rfl⟩

theorem mulSem_im (hD : Resp (eval ρ) (overV V)) :
    MulSem (GoodIm (eval ρ) P (overV V)) (GoodIm (eval ρ) P (overV V)) (GoodIm (eval ρ) P (overV V)) where
  left h := ⟨h.1.check, good_toPoly h.1, (congrArg _ (toPoly_den _)).trans h.2⟩
  right h := h.1.check
  sum := addSem_im hD
  zero := ⟨trivial, by rw [Scalar.den_k]; simp⟩
  zadd h := by rwa [zero_add]
  mul hx hy := by
    have := Scalar.mul_im (prodIn_overV V) hD hx.1 hy.1
    rwa [map_mul, hx.2, hy.2] at this
  mul' {f g x y} hx hy := by
    have := Scalar.mul_im (prodIn_overV V) hD hy.1 hx.1
    rwa [map_mul, hx.2, hy.2, mul_comm] at this
  num {f g x d} hx hd := ⟨trivial, by
    rw [← hx.2, ← hd.2]
    simp [Scalar.den_k, mul_comm]⟩
  mono {f g m d} hm hd := ⟨Mono.mulK_good hm.1 d, by
    rw [← hm.2, ← hd.2, ← map_mul]
    exact congrArg _ (Mono.mulK_den m d)⟩

theorem negOne_im : GoodIm (eval ρ) P (overV V) (-1 : R) (.k negOne) :=
  ⟨trivial, by rw [Scalar.den_k]; unfold negOne; simp⟩

theorem eim_of {e : Expr R} {A : Matrix (Fin r) (Fin c) R} (he : e.Canon) (hA : e.ValuesAt ρ A)
    (hV : e.IDs ⊆ V) : EArr r c (fun i j => GoodIm (eval ρ) (fun _ => True) (overV V) (extM A i j)) e := by
  have h := ((valuesAt_iff.mp hA).and_all he).and_all (q := fun x => x.IDs ⊆ V) (by
    rintro row hrow x hx _ ⟨w, hw, rfl⟩
    exact hV ⟨w, ⟨row, hrow, x, hx, hw⟩, rfl⟩)
  exact h.mono fun i j x _ _ hx => ⟨good_overV hx.1.2 (fun _ _ => trivial) hx.2, hx.1.1⟩

private theorem val {x : Go (Expr R)} {e : Expr R} {f : ℕ → ℕ → R} {A : Matrix (Fin r) (Fin c) R}
    (h : Go.Post x (EArr r c fun i j => GoodIm (eval ρ) P (overV V) (f i j)))
    (hf : ∀ (i : Fin r) (j : Fin c), f i j = A i j) (he : x = .ok e) :
    e.Canon ∧ e.ValuesAt ρ A := by
  have h1 := h e he
  refine ⟨h1.all fun _ _ _ ha => (good_iff.mp ha.1).1, valuesAt_iff.mpr ?_⟩
  refine h1.mono fun i j a hi hj ha => ?_
  rw [extM_of A hi hj, ← hf ⟨i, hi⟩ ⟨j, hj⟩]
  exact ha.2

private theorem sca {s : Scalar R} (hs : s.Canon) (hV : s.IDs ⊆ V) :
    GoodIm (eval ρ) (fun _ => True) (overV V) (s.value ρ) s :=
  ⟨good_overV hs (fun _ _ => trivial) hV, rfl⟩

/-! ## Arithmetic -/

variable {a b e : Expr R} {s : Scalar R} {A B : Matrix (Fin r) (Fin c) R}

/-- C57: whatever `Plus` of two arrays returns is the sum, where the variables have one nonzero value. -/
theorem plus_array_one_nonzero (hr : 0 < r) (hc : 0 < c) (ha : a.Canon) (va : a.ValuesAt ρ A)
    (hb : b.Canon) (vb : b.ValuesAt ρ B) (h : OneNonzero ρ (a.IDs ∪ b.IDs)) (he : a.plus b = .ok e) :
    e.Canon ∧ e.ValuesAt ρ (A + B) :=
  val (Expr.plus_post (addSem_im h.resp) hr hc (eim_of ha va Set.subset_union_left)
    (eim_of hb vb Set.subset_union_right)) (fun i j => by simp [extM_fin]) he

/-- C57: whatever `Minus` of two arrays returns is the difference. -/
theorem minus_array_one_nonzero (hr : 0 < r) (hc : 0 < c) (ha : a.Canon) (va : a.ValuesAt ρ A)
    (hb : b.Canon) (vb : b.ValuesAt ρ B) (h : OneNonzero ρ (a.IDs ∪ b.IDs)) (he : a.minus b = .ok e) :
    e.Canon ∧ e.ValuesAt ρ (A - B) :=
  val (Expr.minus_post (mulSem_im h.resp) negOne_im hr hc (eim_of ha va Set.subset_union_left)
    (eim_of hb vb Set.subset_union_right)) (fun i j => by simp [extM_fin, sub_eq_add_neg]) he

/-- C57: whatever `Multiply` of two arrays returns is the matrix product. -/
theorem mul_array_one_nonzero {A : Matrix (Fin r) (Fin n) R} {B : Matrix (Fin n) (Fin c) R}
    (hr : 0 < r) (hn : 0 < n) (hc : 0 < c) (ha : a.Canon) (va : a.ValuesAt ρ A)
    (hb : b.Canon) (vb : b.ValuesAt ρ B) (h : OneNonzero ρ (a.IDs ∪ b.IDs)) (he : a.mul b = .ok e) :
    e.Canon ∧ e.ValuesAt ρ (A * B) := by
  refine val (Expr.mul_post (mulSem_im h.resp) (mulSem_im h.resp) hr hn hc
    (eim_of ha va Set.subset_union_left) (eim_of hb vb Set.subset_union_right)) (fun i j => ?_) he
  rw [psumG_sum]
  rw [Matrix.mul_apply, Finset.sum_range]
  exact Finset.sum_congr rfl fun k _ => by rw [extM_fin, extM_fin]

/-- C57: a scalar on the right. -/
theorem scalar_right_one_nonzero (hr : 0 < r) (hc : 0 < c) (ha : a.Canon) (va : a.ValuesAt ρ A)
    (hs : s.Canon) (h : OneNonzero ρ (a.IDs ∪ s.IDs)) :
    (∀ e, a.plus (.s s) = .ok e → e.Canon ∧ e.ValuesAt ρ (Matrix.of fun i j => A i j + s.value ρ)) ∧
    (∀ e, a.minus (.s s) = .ok e → e.Canon ∧ e.ValuesAt ρ (Matrix.of fun i j => A i j - s.value ρ)) ∧
    ∀ e, a.mul (.s s) = .ok e → e.Canon ∧ e.ValuesAt ρ (Matrix.of fun i j => A i j * s.value ρ) := by
  have h1 := eim_of ha va (Set.subset_union_left (t := s.IDs))
  have h2 := sca (ρ := ρ) hs (Set.subset_union_right (s := a.IDs))
  refine ⟨fun e he => ?_, fun e he => ?_, fun e he => ?_⟩
  · exact val (Expr.plus_scalar_post (addSem_im h.resp) hr hc h1 h2) (fun i j => by simp [extM_fin]) he
  · exact val (Expr.minus_scalar_post (mulSem_im h.resp) negOne_im hr hc h1 h2)
      (fun i j => by simp [extM_fin, sub_eq_add_neg]) he
  · exact val (Expr.mul_scalar_post (mulSem_im h.resp) hr hc h1 h2) (fun i j => by simp [extM_fin]) he

/-- C57: a scalar on the left. -/
theorem scalar_left_one_nonzero (hr : 0 < r) (hc : 0 < c) (hs : s.Canon) (hb : b.Canon)
    (vb : b.ValuesAt ρ B) (h : OneNonzero ρ (s.IDs ∪ b.IDs)) :
    (∀ e, (Expr.s s).plus b = .ok e → e.Canon ∧ e.ValuesAt ρ (Matrix.of fun i j => s.value ρ + B i j)) ∧
    (∀ e, (Expr.s s).minus b = .ok e → e.Canon ∧ e.ValuesAt ρ (Matrix.of fun i j => s.value ρ - B i j)) ∧
    ∀ e, (Expr.s s).mul b = .ok e → e.Canon ∧ e.ValuesAt ρ (Matrix.of fun i j => s.value ρ * B i j) := by
  have h1 := eim_of hb vb (Set.subset_union_right (s := s.IDs))
  have h2 := sca (ρ := ρ) hs (Set.subset_union_left (t := b.IDs))
  refine ⟨fun e he => ?_, fun e he => ?_, fun e he => ?_⟩
  · exact val (Expr.scalar_plus_post (addSem_im h.resp) hr hc h2 h1) (fun i j => by simp [extM_fin]) he
  · exact val (Expr.scalar_minus_post (mulSem_im h.resp) negOne_im hr hc h2 h1)
      (fun i j => by simp [extM_fin, sub_eq_add_neg]) he
  · exact val (Expr.scalar_mul_post (mulSem_im h.resp) (mulSem_im h.resp) hr hc h2 h1)
      (fun i j => by simp [extM_fin]) he

/-! ## Substitution -/

/-- C57: `Substitute` in an array of any kind. -/
theorem substitute_array_one_nonzero {v : Var R} (hr : 0 < r) (he : e.Canon)
    (va : e.ValuesAt (Function.update ρ v.id (s.value ρ)) A) (hv : v.OK) (hs : s.Canon)
    (henv : SameEnvArr v e) (h : OneNonzero ρ (e.IDs \ {v.id} ∪ s.IDs)) :
    ∃ e', e.substitute v s = .ok e' ∧ e'.Canon ∧ SameKind e e' ∧ e'.ValuesAt ρ A := by
  have h0 := (((valuesAt_iff.mp va).and_all he).and_all
    (q := SameEnv v) fun row hrow x hx w hw => henv w ⟨row, hrow, x, hx, hw⟩).and_all
    (q := fun x => x.IDs ⊆ e.IDs) (by
      rintro row hrow x hx _ ⟨w, hw, rfl⟩
      exact ⟨w, ⟨row, hrow, x, hx, hw⟩, rfl⟩)
  obtain ⟨e', h1, h2, h3⟩ := Expr.substitute_ok (v := v) (s := s)
    (Q' := fun i j x => Good (fun _ => True) Set.univ x ∧ x.value ρ = extM A i j) hr h0
    (fun _ _ x h => (good_of_univ h.1.1.2).check) hv.check (good_of_univ hs).check
    (fun _ _ _ _ => ⟨fun _ h => ⟨good_toPoly h.1, by
        unfold Scalar.value; rw [toPoly_den]; exact h.2⟩,
      fun _ _ h hm => ⟨good_toMono h.1 hm, by unfold Scalar.value; rw [toMono_den hm]; exact h.2⟩⟩)
    (fun i j x _ _ hx => by
      obtain ⟨y, h1, h2, h3⟩ := substitute_one_nonzero hx.1.1.2 hv hs hx.1.2
        (h.mono (Set.union_subset_union_left _ (Set.diff_subset_diff_left hx.2)))
      exact ⟨y, h1, good_of_univ h2, h3.trans hx.1.1.1⟩)
  exact ⟨e', h1, h2.all fun _ _ _ ha => (good_iff.mp ha.1).1, h3,
    valuesAt_iff.mpr (h2.mono fun _ _ _ _ _ ha => ha.2)⟩

/-! ## Constraints -/

theorem ValuesAt.entryD (h : e.ValuesAt ρ A) (i : Fin r) (j : Fin c) : (e.entryD i j).value ρ = A i j := by
  obtain ⟨x, h1, h2⟩ := (valuesAt_iff.mp h).get i.2 j.2
  unfold Expr.entryD
  rw [h1, ← extM_fin A i j]
  exact h2

theorem ValuesAt.shape (h : e.ValuesAt ρ A) : e.Shape r c := (valuesAt_iff.mp h).shape

theorem Con.sat_valuesAt {d : Con R} (hl : d.left.ValuesAt ρ A) (hn : d.right.ValuesAt ρ B) :
    d.Sat ρ ↔ ∀ i j, d.sense.Holds (A i j) (B i j) := by
  rw [Con.sat_denotes (ValuesAt.shape hl).denotes (ValuesAt.shape hn).denotes]
  refine forall_congr' fun i => forall_congr' fun j => ?_
  have h1 := ValuesAt.entryD hl i j
  have h2 := ValuesAt.entryD hn i j
  unfold Scalar.value at h1 h2
  rw [Matrix.of_apply, Matrix.of_apply, h1, h2]

/-- The IDs of the variables of a constraint. -/
def Con.IDs (d : Con R) : Set ℕ := d.left.IDs ∪ d.right.IDs

/-- C57, C41: `Substitute` in a constraint of any kind. -/
theorem substitute_con_array_one_nonzero {d : Con R} {v : Var R} (hd : d.Canon) (hv : v.OK)
    (hs : s.Canon) (hel : SameEnvArr v d.left) (her : SameEnvArr v d.right)
    (h : OneNonzero ρ (d.IDs \ {v.id} ∪ s.IDs)) :
    ∃ d', d.substitute v s = .ok d' ∧ d'.Canon ∧ d'.sense = d.sense ∧
      (d'.Sat ρ ↔ d.Sat (Function.update ρ v.id (s.value ρ))) := by
  obtain ⟨r, k, s1, s2, hr0, hk0⟩ := hd.shape
  obtain ⟨l, l1, l2, -, l3⟩ := substitute_array_one_nonzero hr0 hd.left (s1.valuesAt _) hv hs hel
    (h.mono (Set.union_subset_union_left _ (Set.diff_subset_diff_left Set.subset_union_left)))
  obtain ⟨n, n1, n2, -, n3⟩ := substitute_array_one_nonzero hr0 hd.right (s2.valuesAt _) hv hs her
    (h.mono (Set.union_subset_union_left _ (Set.diff_subset_diff_left Set.subset_union_right)))
  obtain ⟨d', h1, rfl, rfl, h4⟩ := Con.substitute_lift hd l1 n1
  refine ⟨d', h1, ⟨l2, n2, ⟨r, k, ValuesAt.shape l3, ValuesAt.shape n3, hr0, hk0⟩, h4 ▸ hd.sense⟩, h4, ?_⟩
  rw [Con.sat_valuesAt l3 n3, Con.sat_valuesAt (s1.valuesAt _) (s2.valuesAt _), h4]

theorem mat_constant_shape {a : Mat R} {rows : List (List R)} (hr : 0 < r) (hk : 0 < c)
    (he : (Expr.m a).Canon) (hs : (Expr.m a).Shape r c) (h : a.constant = .ok rows) :
    (Expr.m (.k rows)).Shape r c := by
  suffices Go.Post a.constant (Arr r c fun _ _ _ => True) from
    shape_iff.mpr (earr_m_iff.mpr (Arr.map_iff.mpr (this rows h)))
  have h0 := earr_m_iff.mp ((shape_iff.mp hs).and_all he)
  cases a with
  | k l => exact (kToDense_ok ((Arr.map_iff.mp h0).mono fun _ _ _ _ _ _ => trivial) hr hk).post
  | v l | m l =>
    refine Go.post_bind' fun d _ => ?_
    dsimp only
    split
    · exact Go.post_throw
    · exact Go.post_pure (Arr.map_iff.mpr ((Arr.map_iff.mp h0).mono fun _ _ _ _ _ _ => trivial))
  | p l =>
    refine Go.post_bind' fun d _ => ?_
    dsimp only
    split
    · exact Go.post_throw
    · refine (LArr.mapM (Arr.map_iff.mp h0) fun i row hi hrow => LArr.mapM hrow fun j p hj hp => ?_).post
      obtain ⟨k, hk⟩ := constant_total (e := .poly p) hp.2
      exact ⟨k, hk, trivial⟩

theorem vec_constant_shape {a : Vec R} {l : List R} (he : (Expr.v a).Canon)
    (hs : (Expr.v a).Shape r 1) (h : a.constant = .ok l) : (Expr.v (.k l)).Shape r 1 := by
  suffices Go.Post a.constant (LArr r fun _ _ => True) from
    shape_iff.mpr (earr_v_iff.mpr (LArr.map_iff.mpr (this l h)))
  have h0 := earr_v_iff.mp ((shape_iff.mp hs).and_all he)
  cases a with
  | k l =>
    refine Go.Post.mono (fun x hx => ?_) fun _ h => h
    have hx : newVecDense l = .ok x := hx
    unfold newVecDense at hx
    split at hx
    · cases hx
    · cases hx
      exact (LArr.map_iff.mp h0).mono fun _ _ _ _ => trivial
  | v l =>
    refine Go.Post.mono (fun x hx => ?_) fun _ h => h
    have hx : newVecDense _ = .ok x := hx
    unfold newVecDense at hx
    split at hx
    · cases hx
    · cases hx
      exact LArr.map_iff.mpr ((LArr.map_iff.mp h0).mono fun _ _ _ _ => trivial)
  | m l =>
    refine Go.post_bind' fun d _ => ?_
    exact Go.post_pure (LArr.map_iff.mpr ((LArr.map_iff.mp h0).mono fun _ _ _ _ => trivial))
  | p l =>
    refine Go.post_bind' fun d _ => ?_
    refine (LArr.mapM (LArr.map_iff.mp h0) fun j p hj hp => ?_).post
    obtain ⟨k, hk⟩ := constant_total (e := .poly p) hp.2
    exact ⟨k, hk, trivial⟩

theorem ids_k {e : Expr R} (h : ∀ row ∈ e.grid, ∀ x ∈ row, ∃ t, x = .k t) : e.IDs ⊆ V ∧ e.Canon := by
  refine ⟨?_, fun row hrow x hx => ?_⟩
  · rintro _ ⟨w, ⟨row, hrow, x, hx, hw⟩, rfl⟩
    obtain ⟨t, rfl⟩ := h row hrow x hx
    exact hw.elim
  · obtain ⟨t, rfl⟩ := h row hrow x hx
    trivial

/-- The four differences of `AsSimplifiedConstraint`. -/
theorem simplify_steps {L N K1 K2 l n nl nr : Expr R} (hr : 0 < r) (hc : 0 < c) (hL : L.Canon)
    (sL : L.Shape r c) (hN : N.Canon) (sN : N.Shape r c)
    (k1 : ∀ row ∈ K1.grid, ∀ x ∈ row, ∃ t, x = .k t) (s1 : K1.Shape r c)
    (k2 : ∀ row ∈ K2.grid, ∀ x ∈ row, ∃ t, x = .k t) (s2 : K2.Shape r c)
    (h : OneNonzero ρ (L.IDs ∪ N.IDs)) (h1 : L.minus K1 = .ok l) (h2 : N.minus K2 = .ok n)
    (h3 : l.minus n = .ok nl) (h4 : K2.minus K1 = .ok nr) (sense : Sense) [IsStrictOrderedRing R] :
    nl.Canon ∧ nr.Canon ∧ ∃ A B A' B' : Matrix (Fin r) (Fin c) R,
      L.ValuesAt ρ A ∧ N.ValuesAt ρ B ∧ nl.ValuesAt ρ A' ∧ nr.ValuesAt ρ B' ∧
      ∀ i j, sense.Holds (A' i j) (B' i j) ↔ sense.Holds (A i j) (B i j) := by
  have aL := eim_of hL (sL.valuesAt ρ) (Set.subset_union_left (t := N.IDs))
  have aN := eim_of hN (sN.valuesAt ρ) (Set.subset_union_right (s := L.IDs))
  have a1 := eim_of (V := L.IDs ∪ N.IDs) (ids_k k1 (V := L.IDs)).2 (s1.valuesAt ρ) (ids_k k1).1
  have a2 := eim_of (V := L.IDs ∪ N.IDs) (ids_k k2 (V := L.IDs)).2 (s2.valuesAt ρ) (ids_k k2).1
  have al := Expr.minus_post (mulSem_im h.resp) negOne_im hr hc aL a1 l h1
  have an := Expr.minus_post (mulSem_im h.resp) negOne_im hr hc aN a2 n h2
  have p1 := val (A := Matrix.of fun i j => (L.entryD i j).value ρ - (K1.entryD i j).value ρ -
      ((N.entryD i j).value ρ - (K2.entryD i j).value ρ))
    (Expr.minus_post (mulSem_im h.resp) negOne_im hr hc al an)
    (fun i j => by simp only [extM_fin, Matrix.of_apply]; ring) h3
  have p2 := val (A := Matrix.of fun i j => (K2.entryD i j).value ρ - (K1.entryD i j).value ρ)
    (Expr.minus_post (mulSem_im h.resp) negOne_im hr hc a2 a1)
    (fun i j => by simp only [extM_fin, Matrix.of_apply]; ring) h4
  refine ⟨p1.1, p2.1, _, _, _, _, sL.valuesAt ρ, sN.valuesAt ρ, p1.2, p2.2, fun i j => ?_⟩
  refine Iff.trans (iff_of_eq (congrArg₂ _ ?_ rfl)) (Sense.holds_shift sense _ _
    ((K2.entryD i j).value ρ - (K1.entryD i j).value ρ))
  simp only [Matrix.of_apply]
  ring

variable [IsStrictOrderedRing R]

/-- C57, C34 for matrices: whenever `AsSimplifiedConstraint` returns, the constraint it returns holds at
`ρ` exactly when the given one does. -/
theorem mat_simplify_one_nonzero {d d' : MCon R} (hd : (Con.m d).Canon)
    (h : OneNonzero ρ (Con.m d).IDs) (hs : d.simplify = .ok d') :
    (Con.m d').Canon ∧ d'.sense = d.sense ∧ ((Con.m d').Sat ρ ↔ (Con.m d).Sat ρ) := by
  obtain ⟨r, k, s1, s2, hr, hk⟩ := hd.shape
  unfold MCon.simplify at hs
  obtain ⟨ls, hls, hs⟩ := Go.bind_eq_ok.mp hs
  obtain ⟨l, h1, hs⟩ := Go.bind_eq_ok.mp hs
  obtain ⟨rs, hrs, hs⟩ := Go.bind_eq_ok.mp hs
  obtain ⟨n, h2, hs⟩ := Go.bind_eq_ok.mp hs
  obtain ⟨nl, h3, hs⟩ := Go.bind_eq_ok.mp hs
  rw [hls, hrs, Go.ok_bind, Go.ok_bind] at hs
  obtain ⟨nr, h4, hs⟩ := Go.bind_eq_ok.mp hs
  have hk' : ∀ (g : List (List R)), ∀ row ∈ (Expr.m (.k g)).grid, ∀ x ∈ row, ∃ t, x = .k t := by
    intro g row hrow x hx
    obtain ⟨row', -, rfl⟩ := List.mem_map.mp hrow
    obtain ⟨t, -, rfl⟩ := List.mem_map.mp hx
    exact ⟨t, rfl⟩
  obtain ⟨c1, c2, A, B, A', B', v1, v2, v3, v4, hiff⟩ := simplify_steps hr hk hd.left s1 hd.right s2
    (hk' ls) (mat_constant_shape hr hk hd.left s1 hls) (hk' rs) (mat_constant_shape hr hk hd.right s2 hrs)
    h h1 h2 h3 h4 d.sense
  cases nl with
  | m nl =>
    cases nr with
    | m nr =>
      cases hs
      refine ⟨⟨c1, c2, ⟨r, k, ValuesAt.shape v3, ValuesAt.shape v4, hr, hk⟩, hd.sense⟩, rfl, ?_⟩
      rw [Con.sat_valuesAt (d := .m ⟨nl, nr, d.sense⟩) v3 v4, Con.sat_valuesAt (d := .m d) v1 v2]
      exact forall_congr' fun i => forall_congr' fun j => hiff i j
    | _ => cases hs
  | _ => cases hs

/-- C57, C34 for vectors, likewise. -/
theorem vec_simplify_one_nonzero {d d' : VCon R} (hd : (Con.v d).Canon)
    (h : OneNonzero ρ (Con.v d).IDs) (hs : d.simplify = .ok d') :
    (Con.v d').Canon ∧ d'.sense = d.sense ∧ ((Con.v d').Sat ρ ↔ (Con.v d).Sat ρ) := by
  obtain ⟨r, k, s1, s2, hr, hk⟩ := hd.shape
  obtain rfl : k = 1 := earr_v_cols hr (shape_iff.mp s1)
  unfold VCon.simplify at hs
  obtain ⟨_, -, hs⟩ := Go.bind_eq_ok.mp hs
  obtain ⟨ls, hls, hs⟩ := Go.bind_eq_ok.mp hs
  obtain ⟨l, h1, hs⟩ := Go.bind_eq_ok.mp hs
  obtain ⟨rs, hrs, hs⟩ := Go.bind_eq_ok.mp hs
  obtain ⟨n, h2, hs⟩ := Go.bind_eq_ok.mp hs
  obtain ⟨nl, h3, hs⟩ := Go.bind_eq_ok.mp hs
  rw [hls, hrs, Go.ok_bind, Go.ok_bind] at hs
  obtain ⟨nr, h4, hs⟩ := Go.bind_eq_ok.mp hs
  have hk' : ∀ (g : List R), ∀ row ∈ (Expr.v (.k g)).grid, ∀ x ∈ row, ∃ t, x = .k t := by
    intro g row hrow x hx
    obtain ⟨y, hy, rfl⟩ := List.mem_map.mp hrow
    obtain ⟨t, -, rfl⟩ := List.mem_map.mp hy
    rw [List.mem_singleton] at hx
    exact ⟨t, hx⟩
  obtain ⟨c1, c2, A, B, A', B', v1, v2, v3, v4, hiff⟩ := simplify_steps hr hk hd.left s1 hd.right s2
    (hk' ls) (vec_constant_shape hd.left s1 hls) (hk' rs) (vec_constant_shape hd.right s2 hrs)
    h h1 h2 h3 h4 d.sense
  cases nl with
  | v nl =>
    cases nr with
    | v nr =>
      cases hs
      refine ⟨⟨c1, c2, ⟨r, 1, ValuesAt.shape v3, ValuesAt.shape v4, hr, hk⟩, hd.sense⟩, rfl, ?_⟩
      rw [Con.sat_valuesAt (d := .v ⟨nl, nr, d.sense⟩) v3 v4, Con.sat_valuesAt (d := .v d) v1 v2]
      exact forall_congr' fun i => forall_congr' fun j => hiff i j
    | _ => cases hs
  | _ => cases hs

/-! ## Examples -/

private theorem returns {α : Type} {x : Go α} (h : x.isOk = true) : ∃ e, x = .ok e := by
  cases x with
  | ok e => exact ⟨e, rfl⟩
  | error e => cases h

/-- `(x^2*y, x) + (x*y^2, y)` at `x = y = 1`: `(2, 2)`, although the entries are collected wrongly. -/
example : ∃ e, (Expr.v (.m [wm2 1 0 1 2 1, wm1 1 0 1])).plus (.v (.m [wm2 1 1 0 2 1, wm1 1 1 1])) = .ok e ∧
    e.ValuesAt (fun _ => (1 : ℚ)) (!![1; 1] + !![1; 1] : Matrix (Fin 2) (Fin 1) ℚ) := by
  obtain ⟨e, he⟩ := returns (x := (Expr.v (.m [wm2 1 0 1 2 1, wm1 1 0 1])).plus
    (.v (.m [wm2 1 1 0 2 1, wm1 1 1 1]))) (by decide +kernel)
  have v : ∀ i j k, (Expr.v (.m [wm2 1 i j 2 1, wm1 1 k 1])).ValuesAt (fun _ => (1 : ℚ))
      (!![1; 1] : Matrix (Fin 2) (Fin 1) ℚ) := by
    intro i j k
    simp [Expr.ValuesAt, Expr.grid, Vec.entries, Scalar.value, Scalar.den_mono, Mono.den_eq_prod, wm1, wm2]
  exact ⟨e, he, (plus_array_one_nonzero (by decide) (by decide) (Expr.okDeg_canon 3 (by decide +kernel))
    (v 0 1 0) (Expr.okDeg_canon 3 (by decide +kernel)) (v 1 0 1) (fun _ _ _ _ _ _ => rfl) he).2⟩

/-- `(x - y + 1, 2x - 2) >= (y, 3 + z)` at the 0/1 assignments. -/
example (ρ : ℕ → ℚ) (h : ∀ i, ρ i = 0 ∨ ρ i = 1) : ∃ d', wvc1.simplify = .ok d' ∧
    ((Con.v d').Sat ρ ↔ (Con.v wvc1).Sat ρ) := by
  obtain ⟨d', hd⟩ := returns (x := wvc1.simplify) (by decide +kernel)
  have hc : (Con.v wvc1).Canon := ⟨Expr.okDeg_canon 3 (by decide +kernel),
    Expr.okDeg_canon 3 (by decide +kernel), ⟨2, 1, by decide, by decide, by decide, by decide⟩,
    Or.inr (Or.inr rfl)⟩
  exact ⟨d', hd, (vec_simplify_one_nonzero hc (Binary.oneNonzero fun i _ => h i) hd).2.2⟩

/-- A matrix of monomials times a vector of variables at a 0/1 assignment. -/
example (ρ : ℕ → ℚ) (h : ∀ i, ρ i = 0 ∨ ρ i = 1) :
    ∃ (e : Expr ℚ) (A : Matrix (Fin 2) (Fin 2) ℚ) (B : Matrix (Fin 2) (Fin 1) ℚ),
      (Expr.m wMm).ValuesAt ρ A ∧ (Expr.v wVv).ValuesAt ρ B ∧ (Expr.m wMm).mul (.v wVv) = .ok e ∧
      e.ValuesAt ρ (A * B) := by
  obtain ⟨e, he⟩ := returns (x := (Expr.m wMm).mul (.v wVv)) (by decide +kernel)
  have va := Expr.Shape.valuesAt (e := .m wMm) (r := 2) (c := 2) (by decide) ρ
  have vb := Expr.Shape.valuesAt (e := .v wVv) (r := 2) (c := 1) (by decide) ρ
  exact ⟨e, _, _, va, vb, he, (mul_array_one_nonzero (by decide) (by decide) (by decide)
    (Expr.okDeg_canon 1 (by decide +kernel)) va (Expr.okDeg_canon 1 (by decide +kernel)) vb
    (Binary.oneNonzero fun i _ => h i) he).2⟩

end Verif
