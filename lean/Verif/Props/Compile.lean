import Verif.Props.Implies
import Verif.Props.Shapes

/-!
# C33, C38, C40 for vector and matrix constraints
-/

set_option linter.unusedSectionVars false

namespace Verif

open MvPolynomial

section Struct
variable {R : Type} [GoNum R] {r k : ℕ}

/-- The entry of `e`, or zero outside of `e`. -/
def Expr.entryD (e : Expr R) (i j : ℕ) : Scalar R := (e.entry i j).getD (.k GoNum.zero)

theorem Expr.Shape.grid_eq {e : Expr R} (hs : e.Shape r k) :
    e.grid = (List.range r).map (fun i => (List.range k).map (fun j => e.entryD i j)) := by
  refine List.ext_getElem (by rw [hs.1]; simp) fun i hi hi' => ?_
  have l1 := hs.2 _ (List.getElem_mem hi)
  rw [List.getElem_map, List.getElem_range]
  refine List.ext_getElem (by rw [l1]; simp) fun j hj hj' => ?_
  rw [List.getElem_map, List.getElem_range]
  unfold Expr.entryD Expr.entry
  rw [List.getElem?_eq_getElem hi, Option.bind_some, List.getElem?_eq_getElem hj]
  rfl

theorem Expr.Shape.entryD_some {e : Expr R} (hs : e.Shape r k) {i j : ℕ} (hi : i < r) (hj : j < k) :
    e.entry i j = some (e.entryD i j) := by
  obtain ⟨a, h, -⟩ := (EArr.self hs).get hi hj
  unfold Expr.entryD
  rw [h]
  rfl

theorem Expr.at_entryD {e : Expr R} (he : e.Canon) (hs : e.Shape r k) {i j : ℕ} (hi : i < r)
    (hj : j < k) : e.at i j = .ok (e.entryD i j) := by
  rw [at_ok_iff (by omega) (by omega) he hs]
  refine ⟨by omega, by omega, by omega, by omega, ?_⟩
  rw [Int.toNat_natCast, Int.toNat_natCast]
  exact hs.entryD_some hi hj

theorem Vec.atVec_entryD {a : Vec R} (he : (Expr.v a).Canon) (hs : (Expr.v a).Shape r 1) {i : ℕ}
    (hi : i < r) : a.atVec i = .ok ((Expr.v a).entryD i 0) := by
  rw [atVec_ok_iff (by omega) he hs]
  refine ⟨by omega, by omega, ?_⟩
  rw [Int.toNat_natCast]
  exact hs.entryD_some hi (by decide)

theorem Expr.check_ok {e : Expr R} (he : e.Canon) (hs : e.Shape r k) (hr : 0 < r) :
    e.check = .ok () :=
  (egood_of hs he (P := fun _ => True) fun _ _ => trivial).check hr fun _ _ _ h => h.check

theorem Expr.dims_ok {e : Expr R} (he : e.Canon) (hs : e.Shape r k) (hr : 0 < r) :
    e.dims = .ok (r, k) :=
  (egood_of hs he (P := fun _ => True) fun _ _ => trivial).dims hr fun _ _ _ h => h.check

theorem Vec.len_ok {a : Vec R} (he : (Expr.v a).Canon) (hs : (Expr.v a).Shape r 1) (hr : 0 < r) :
    a.len = .ok r :=
  (earr_v_iff.mp (egood_of hs he (P := fun _ => True) fun _ _ => trivial)).len hr
    fun _ _ h => h.check

/-- A well-formed constraint passes `Check`. -/
theorem Con.Canon.check {c : Con R} (hc : c.Canon) : c.check = .ok () := by
  obtain ⟨r, k, h1, h2, hr, hk⟩ := hc.shape
  have c1 := Expr.check_ok hc.left h1 hr
  have c2 := Expr.check_ok hc.right h2 hr
  have d1 := Expr.dims_ok hc.left h1 hr
  have d2 := Expr.dims_ok hc.right h2 hr
  have c3 := hc.sense.check
  cases c with
  | s c =>
    show c.check = _
    unfold SCon.check
    rw [show c.lhs.check = .ok () from c1, show c.rhs.check = .ok () from c2,
      show c.sense.check = .ok () from c3]
    rfl
  | v c =>
    show c.check = _
    unfold VCon.check
    rw [show c.lhs.check = .ok () from c1, show c.rhs.check = .ok () from c2,
      show c.sense.check = .ok () from c3, show c.lhs.dims = .ok (r, k) from d1,
      show c.rhs.dims = .ok (r, k) from d2]
    simp [Go.ok_bind, checkDimAdd, Go.pure_eq]
  | m c =>
    show c.check = _
    unfold MCon.check
    rw [show c.lhs.check = .ok () from c1, show c.rhs.check = .ok () from c2,
      show c.lhs.dims = .ok (r, k) from d1, show c.rhs.dims = .ok (r, k) from d2]
    simp only [Go.ok_bind, ne_eq, not_true_eq_false, if_false]
    exact c3

/-- The entries of a well-formed constraint, by index. -/
theorem Con.entries_eq {c : Con R} (h1 : c.left.Shape r k) (h2 : c.right.Shape r k) :
    c.entries = (List.range r).map (fun i => (List.range k).map (fun j =>
      ⟨c.left.entryD i j, c.right.entryD i j, c.sense⟩)) := by
  unfold Con.entries
  rw [h1.grid_eq, h2.grid_eq, List.zipWith_map, List.zipWith_self]
  refine List.map_congr_left fun i _ => ?_
  rw [List.zipWith_map, List.zipWith_self]

/-- `VectorConstraint.AtVec` returns the constraint between the entries. -/
theorem VCon.atVec_ok {c : VCon R} (hc : (Con.v c).Canon) (h1 : (Expr.v c.lhs).Shape r 1)
    (h2 : (Expr.v c.rhs).Shape r 1) {i : ℕ} (hi : i < r) :
    c.atVec i = .ok ⟨(Expr.v c.lhs).entryD i 0, (Expr.v c.rhs).entryD i 0, c.sense⟩ := by
  have hck : c.check = .ok () := hc.check
  have hd : c.lhs.dims = .ok (r, 1) := Expr.dims_ok hc.left h1 (by omega)
  unfold VCon.atVec VCon.dims
  rw [hck, Go.ok_bind, Go.ok_bind, hd, Go.ok_bind]
  have : checkIndexVec (i : ℤ) (r, 1) = .ok () := by
    unfold checkIndexVec
    rw [if_neg (by simp only []; omega)]
    rfl
  rw [this, Go.ok_bind, Vec.atVec_entryD hc.left h1 hi, Go.ok_bind, Vec.atVec_entryD hc.right h2 hi]
  rfl

/-- `MatrixConstraint.At` returns the constraint between the entries. -/
theorem MCon.at_ok {c : MCon R} (hc : (Con.m c).Canon) (h1 : (Expr.m c.lhs).Shape r k)
    (h2 : (Expr.m c.rhs).Shape r k) {i j : ℕ} (hi : i < r) (hj : j < k) :
    c.at i j = .ok ⟨(Expr.m c.lhs).entryD i j, (Expr.m c.rhs).entryD i j, c.sense⟩ := by
  have hck : c.check = .ok () := hc.check
  have hd : c.lhs.dims = .ok (r, k) := Expr.dims_ok hc.left h1 (by omega)
  unfold MCon.at MCon.dims
  rw [hck, Go.ok_bind, Go.ok_bind, hd, Go.ok_bind, checkIndexMat_ok hi hj, Go.ok_bind,
    show c.lhs.at i j = _ from Expr.at_entryD hc.left h1 hi hj, Go.ok_bind,
    show c.rhs.at i j = _ from Expr.at_entryD hc.right h2 hi hj]
  rfl

/-- C40, any arithmetic: compiling one well-formed constraint returns exactly the constraints between
corresponding entries, row by row. -/
theorem compile_entries {c : Con R} (hc : c.Canon) : c.compile = .ok c.entries.flatten := by
  obtain ⟨r, k, h1, h2, hr, hk⟩ := hc.shape
  have hck := hc.check
  rw [Con.entries_eq h1 h2]
  cases c with
  | s c =>
    have e1 : 1 = r := h1.1
    have e2 : 1 = k := h1.2 [c.lhs] (by simp [Con.left, Expr.grid])
    subst e1 e2
    rfl
  | v c =>
    obtain rfl := earr_v_cols hr (EArr.self h1)
    show (do
      let n ← c.len
      (List.range n).mapM (fun (i : Nat) => c.atVec i)) = _
    unfold VCon.len
    rw [show c.check = .ok () from hck, Go.ok_bind, Vec.len_ok hc.left h1 hr, Go.ok_bind,
      mapM_eq _ fun i hi => VCon.atVec_ok hc h1 h2 (List.mem_range.mp hi)]
    congr 1
    rw [← List.flatMap_def]
    simp only [List.range_one, List.map_cons, List.map_nil]
    rw [← List.map_eq_flatMap]
    rfl
  | m c =>
    show (do
      let d ← c.dims
      (indexPairs d).mapM (fun (ij : ℕ × ℕ) => c.at ij.1 ij.2)) = _
    unfold MCon.dims
    rw [show c.check = .ok () from hck, Go.ok_bind,
      show c.lhs.dims = .ok (r, k) from Expr.dims_ok hc.left h1 hr, Go.ok_bind]
    rw [mapM_eq (g := fun ij : ℕ × ℕ =>
      (⟨(Expr.m c.lhs).entryD ij.1 ij.2, (Expr.m c.rhs).entryD ij.1 ij.2, c.sense⟩ : SCon R))]
    · congr 1
      unfold indexPairs
      rw [List.map_flatMap, List.flatMap_def]
      simp only [List.map_map]
      rfl
    · intro ij hij
      unfold indexPairs at hij
      simp only [List.mem_flatMap, List.mem_map, List.mem_range] at hij
      obtain ⟨i, hi, j, hj, rfl⟩ := hij
      exact MCon.at_ok hc h1 h2 hi hj

/-- The entries of a well-formed constraint are well formed. -/
theorem Con.Canon.entries {c : Con R} (hc : c.Canon) : ∀ s ∈ c.entries.flatten, s.Canon := by
  obtain ⟨r, k, h1, h2, hr, hk⟩ := hc.shape
  rw [Con.entries_eq h1 h2]
  intro s hs
  simp only [List.mem_flatten, List.mem_map, List.mem_range] at hs
  obtain ⟨_, ⟨i, hi, rfl⟩, hs⟩ := hs
  simp only [List.mem_map, List.mem_range] at hs
  obtain ⟨j, hj, rfl⟩ := hs
  have e1 := ((EArr.self h1).and_all hc.left).get hi hj
  have e2 := ((EArr.self h2).and_all hc.right).get hi hj
  obtain ⟨a, ha, -, ca⟩ := e1
  obtain ⟨b, hb, -, cb⟩ := e2
  refine ⟨?_, ?_, hc.sense⟩
  · show (c.left.entryD i j).Canon
    unfold Expr.entryD
    rw [ha]
    exact ca
  · show (c.right.entryD i j).Canon
    unfold Expr.entryD
    rw [hb]
    exact cb

/-- C40, any arithmetic: the compiled list is the concatenation of the entries of the constraints. -/
theorem compileAll_entries {cs : List (Con R)} (h : ∀ c ∈ cs, c.Canon) :
    compileAll cs = .ok (cs.flatMap fun c => c.entries.flatten) := by
  unfold compileAll
  rw [mapM_eq cs fun c hc => compile_entries (h c hc), Go.ok_bind, List.flatMap_def]
  rfl

/-- C40: the number of compiled constraints is the total number of entries. -/
theorem compileAll_length {cs : List (Con R)} (h : ∀ c ∈ cs, c.Canon) {l : List (SCon R)}
    (hl : compileAll cs = .ok l) :
    l.length = (cs.map fun c => c.left.grid.flatten.length).sum ∧
    l.length = (cs.map fun c => c.right.grid.flatten.length).sum ∧ ∀ s ∈ l, s.Canon := by
  rw [compileAll_entries h, Except.ok.injEq] at hl
  subst hl
  rw [List.length_flatMap]
  refine ⟨?_, ?_, ?_⟩
  · congr 1
    refine List.map_congr_left fun c hc => ?_
    obtain ⟨r, k, h1, h2, -⟩ := (h c hc).shape
    rw [Con.entries_eq h1 h2, h1.grid_eq]
    simp [List.length_flatten, Function.comp_def]
  · congr 1
    refine List.map_congr_left fun c hc => ?_
    obtain ⟨r, k, h1, h2, -⟩ := (h c hc).shape
    rw [Con.entries_eq h1 h2, h2.grid_eq]
    simp [List.length_flatten, Function.comp_def]
  · intro s hs
    obtain ⟨c, hc, hs⟩ := List.mem_flatMap.mp hs
    exact (h c hc).entries s hs

end Struct

section Value
variable {R : Type} [Field R] [LinearOrder R]

/-- A well-formed constraint is satisfied iff all its entries are. -/
theorem Con.Canon.sat_iff {c : Con R} (hc : c.Canon) (ρ : ℕ → R) :
    (∀ s ∈ c.entries.flatten, s.Sat ρ) ↔ c.Sat ρ := by
  obtain ⟨r, k, h1, h2, hr, hk⟩ := hc.shape
  rw [Con.entries_eq h1 h2]
  unfold Con.Sat
  rw [h1.grid_eq, h2.grid_eq, List.forall₂_map_left_iff, List.forall₂_map_right_iff,
    List.forall₂_same]
  simp only [List.forall₂_map_left_iff, List.forall₂_map_right_iff, List.forall₂_same]
  constructor
  · intro h i hi j hj
    exact h ⟨c.left.entryD i j, c.right.entryD i j, c.sense⟩ (List.mem_flatten.mpr
      ⟨_, List.mem_map.mpr ⟨i, hi, rfl⟩, List.mem_map.mpr ⟨j, hj, rfl⟩⟩)
  · intro h s hs
    obtain ⟨row, hrow, hs⟩ := List.mem_flatten.mp hs
    obtain ⟨i, hi, rfl⟩ := List.mem_map.mp hrow
    obtain ⟨j, hj, rfl⟩ := List.mem_map.mp hs
    exact h i hi j hj

/-- C40: `CompileConstraintsIntoScalarConstraints` keeps the feasible set: an assignment satisfies all
compiled constraints iff it satisfies every entry of every given constraint.  Missing: vector
constraints between a vector of length one and a longer one, which `Check` accepts
(`compile_broadcast_false`, `compile_broadcast_panics`). -/
theorem compile_feasible_partial {cs : List (Con R)} (h : ∀ c ∈ cs, c.Canon) :
    ∃ l, compileAll cs = .ok l ∧ ∀ ρ, (∀ s ∈ l, s.Sat ρ) ↔ ∀ c ∈ cs, c.Sat ρ := by
  refine ⟨_, compileAll_entries h, fun ρ => ?_⟩
  constructor
  · intro hs c hc
    exact ((h c hc).sat_iff ρ).mp fun s hs' => hs s (List.mem_flatMap.mpr ⟨c, hc, hs'⟩)
  · intro hc s hs
    obtain ⟨c, hc', hs⟩ := List.mem_flatMap.mp hs
    exact ((h c hc').sat_iff ρ).mpr (hc c hc') s hs

/-- C40 is false for constraints of different lengths: `Check` accepts `(x) <= (1, 0)`, and only the
constraint `x <= 1` is compiled. -/
theorem compile_broadcast_false :
    (VCon.check ⟨.v [wx], .k [(1 : ℚ), 0], .le⟩ = .ok ()) ∧
    compileAll [.v ⟨.v [wx], .k [(1 : ℚ), 0], .le⟩] = .ok [⟨.var wx, .k 1, .le⟩] := by
  decide +kernel

/-- C40: the other way round, `(1, 0) <= (x)` passes `Check` and compiling it panics. -/
theorem compile_broadcast_panics :
    (VCon.check ⟨.k [(1 : ℚ), 0], .v [wx], .le⟩ = .ok ()) ∧
    compileAll [.v ⟨.k [(1 : ℚ), 0], .v [wx], .le⟩] = .error .index := by
  decide +kernel

/-! ## C38 for vectors and matrices -/

variable [IsStrictOrderedRing R]

/-- The entries of `c` satisfy the conditions of `implies_sound_partial`. -/
def Con.Plain (c : Con R) : Prop := ∀ s ∈ c.entries.flatten, s.Plain ∧ s.Nonconst

theorem anyImplies_sound {o : SCon R} (ho : o.Plain) (no : o.Nonconst) {l : List (SCon R)}
    (hl : ∀ s ∈ l, s.Plain ∧ s.Nonconst) :
    ∃ b, anyImplies o (l.map .ok) = .ok b ∧
      (b = true → ∃ s ∈ l, ∀ ρ, s.Sat ρ → o.Sat ρ) := by
  induction l with
  | nil => exact ⟨false, rfl, by simp⟩
  | cons s l ih =>
    obtain ⟨hs, ns⟩ := hl s (by simp)
    obtain ⟨b, h1, h2⟩ := ih fun t ht => hl t (by simp [ht])
    obtain ⟨r, r1, -⟩ := impliesS_result hs ho ns no
    simp only [List.map_cons, anyImplies, Go.ok_bind, r1]
    cases r with
    | true =>
      exact ⟨true, rfl, fun _ => ⟨s, by simp, implies_sound_partial hs ho ns no r1⟩⟩
    | false =>
      refine ⟨b, h1, fun hb => ?_⟩
      obtain ⟨t, ht, h⟩ := h2 hb
      exact ⟨t, by simp [ht], h⟩

/-- C38 for constraints of every kind: under the conditions of `implies_sound_partial` for the entries,
the method answers and a positive answer is right. -/
theorem implies_all_sound_partial {c : Con R} {o : SCon R} (hc : c.Canon) (pc : c.Plain)
    (ho : o.Plain) (no : o.Nonconst) :
    ∃ b, c.implies (.s o) = .ok b ∧ (b = true → ∀ ρ, c.Sat ρ → o.Sat ρ) := by
  obtain ⟨r, k, h1, h2, hr, hk⟩ := hc.shape
  have key : ∃ b, anyImplies o (c.entries.flatten.map .ok) = .ok b ∧
      (b = true → ∀ ρ, c.Sat ρ → o.Sat ρ) := by
    obtain ⟨b, b1, b2⟩ := anyImplies_sound ho no pc
    refine ⟨b, b1, fun hb ρ hs => ?_⟩
    obtain ⟨s, hs', himp⟩ := b2 hb
    exact himp ρ ((hc.sat_iff ρ).mpr hs s hs')
  have hoc : Con.check (.s o) = .ok () := ho.canon.check
  have hck := hc.check
  cases c with
  | s c =>
    have hmem : c ∈ (Con.s c).entries.flatten := by
      simp [Con.entries, Con.left, Con.right, Con.sense, Expr.grid]
    obtain ⟨p1, p2⟩ := pc c hmem
    obtain ⟨b, b1, -⟩ := impliesS_result p1 ho p2 no
    refine ⟨b, b1, fun hb ρ hs => ?_⟩
    subst hb
    exact implies_sound_partial p1 ho p2 no b1 ρ ((Con.sat_s ρ c).mp hs)
  | v c =>
    obtain rfl := earr_v_cols hr (EArr.self h1)
    obtain ⟨b, b1, b2⟩ := key
    refine ⟨b, ?_, b2⟩
    show (do
      c.check
      Con.check (.s o)
      let n ← c.len
      anyImplies o ((List.range n).map (fun (i : Nat) => c.atVec i)) : Go Bool) = _
    unfold VCon.len
    rw [show c.check = .ok () from hck, Go.ok_bind, hoc, Go.ok_bind, Go.ok_bind,
      Vec.len_ok hc.left h1 hr, Go.ok_bind, ← b1, Con.entries_eq h1 h2]
    congr 1
    simp only [List.range_one, List.map_cons, List.map_nil]
    rw [← List.flatMap_def, ← List.map_eq_flatMap, List.map_map]
    exact List.map_congr_left fun i hi => VCon.atVec_ok hc h1 h2 (List.mem_range.mp hi)
  | m c =>
    obtain ⟨b, b1, b2⟩ := key
    refine ⟨b, ?_, b2⟩
    show (do
      c.check
      Con.check (.s o)
      let d ← c.dims
      anyImplies o ((indexPairs d).map (fun ij => c.at ij.1 ij.2)) : Go Bool) = _
    unfold MCon.dims
    rw [show c.check = .ok () from hck, Go.ok_bind, hoc, Go.ok_bind, Go.ok_bind,
      show c.lhs.dims = .ok (r, k) from Expr.dims_ok hc.left h1 hr, Go.ok_bind, ← b1,
      Con.entries_eq h1 h2]
    congr 1
    unfold indexPairs
    rw [← List.flatMap_def, List.map_flatMap, List.map_flatMap]
    simp only [List.map_map]
    rw [List.flatMap_def, List.flatMap_def]
    congr 1
    refine List.map_congr_left fun i hi => List.map_congr_left fun j hj => ?_
    exact MCon.at_ok hc h1 h2 (List.mem_range.mp hi) (List.mem_range.mp hj)

/-- C38: vector and matrix constraints never claim to imply a vector or matrix constraint. -/
theorem implies_arrays_false {c o : Con R} (hc : c.Canon) (ho : o.Canon) (h1 : ∀ s, c ≠ .s s)
    (h2 : ∀ s, o ≠ .s s) : c.implies o = .ok false := by
  have k1 := hc.check
  have k2 := ho.check
  cases c with
  | s c => exact absurd rfl (h1 c)
  | v c =>
    cases o with
    | s o => exact absurd rfl (h2 o)
    | v o | m o =>
      show c.implies _ = _
      unfold VCon.implies
      rw [show c.check = .ok () from k1, Go.ok_bind, k2]
      rfl
  | m c =>
    cases o with
    | s o => exact absurd rfl (h2 o)
    | v o | m o =>
      show c.implies _ = _
      unfold MCon.implies
      rw [show c.check = .ok () from k1, Go.ok_bind, k2]
      rfl

end Value

/-! ## C33 for vectors and matrices -/

section Struct
variable {R : Type} [GoNum R] {r k : ℕ}

/-- The pairs of expressions of the same shape that `Comparison` supports: two scalars, two vectors
except a `MonomialVector` with a `PolynomialVector`, two matrices except a `PolynomialMatrix` with a
matrix that is not constant. -/
def Comparable : Expr R → Expr R → Prop
  | .s _, .s _ => True
  | .v (.m _), .v (.p _) => False
  | .v _, .v _ => True
  | .m (.p _), .m (.k _) => True
  | .m (.p _), .m _ => False
  | .m _, .m _ => True
  | _, _ => False

/-- C33, any arithmetic: the constraint stores the two sides and the sense. -/
theorem comparison_sides {a e : Expr R} (hr : 0 < r) (ha : a.Canon) (sa : a.Shape r k) (he : e.Canon)
    (se : e.Shape r k) (hc : Comparable a e) (s : Sense) :
    ∃ c, a.comparison e s = .ok c ∧ c.left = a ∧ c.right = e ∧ c.sense = s := by
  have c1 := Expr.check_ok ha sa hr
  have c2 := Expr.check_ok he se hr
  have hd : checkDimCompare a e = .ok () := by
    unfold checkDimCompare
    rw [Expr.dims_ok ha sa hr, Expr.dims_ok he se hr]
    simp [Go.ok_bind, Go.pure_eq]
  cases a with
  | s a =>
    cases e with
    | s e => exact ⟨_, comparison_scalar c1 c2 s, rfl, rfl, rfl⟩
    | v e => exact hc.elim
    | m e => exact hc.elim
  | v a =>
    show ∃ c, a.comparison e s = _ ∧ _
    unfold Vec.comparison
    rw [show a.check = .ok () from c1, Go.ok_bind, c2, Go.ok_bind, hd, Go.ok_bind]
    cases e with
    | s e => cases a <;> exact hc.elim
    | v e => cases a <;> cases e <;> first | exact hc.elim | exact ⟨_, rfl, rfl, rfl, rfl⟩
    | m e => cases a <;> exact hc.elim
  | m a =>
    show ∃ c, a.comparison e s = _ ∧ _
    unfold Mat.comparison
    rw [show a.check = .ok () from c1, Go.ok_bind, c2, Go.ok_bind, hd, Go.ok_bind]
    cases e with
    | s e => cases a <;> exact hc.elim
    | v e => cases a <;> exact hc.elim
    | m e => cases a <;> cases e <;> first | exact hc.elim | exact ⟨_, rfl, rfl, rfl, rfl⟩

/-- C33: a vector (not of variables) or a matrix compared with a constant is compared with the array
filled with `c * 1`. -/
theorem comparison_const {a : Expr R} (hr : 0 < r) (hk : 0 < k) (ha : a.Canon) (sa : a.Shape r k)
    (hs : ∀ x, a ≠ .s x) (hv : ∀ l, a ≠ .v (.v l)) (x : R) (s : Sense) :
    ∃ c, a.comparison (.s (.k x)) s = .ok c ∧ c.left = a ∧ c.right.Shape r k ∧
      c.right.All (· = .k (GoNum.mul x GoNum.one)) ∧ c.sense = s := by
  have c1 := Expr.check_ok ha sa hr
  have d1 := Expr.dims_ok ha sa hr
  have hd : checkDimCompare a (.s (.k x)) = .ok () := by
    unfold checkDimCompare
    rw [d1]
    simp [Go.ok_bind, Go.pure_eq, Expr.dims, Expr.isScalarType]
  cases a with
  | s a => exact absurd rfl (hs a)
  | v a =>
    obtain rfl := earr_v_cols hr (EArr.self sa)
    have h : a.comparison (.s (.k x)) s = (do
        let l ← constVec (← a.len) x
        return .v ⟨a, .k l, s⟩) := by
      unfold Vec.comparison
      rw [show a.check = .ok () from c1, Go.ok_bind, show (Expr.s (.k x)).check = .ok () from rfl,
        Go.ok_bind, hd, Go.ok_bind]
      cases a with
      | v l => exact absurd rfl (hv l)
      | k l => rfl
      | m l => rfl
      | p l => rfl
    show ∃ c, a.comparison _ s = _ ∧ _
    rw [h, Vec.len_ok ha sa hr, Go.ok_bind]
    have hne : List.replicate r (GoNum.mul x GoNum.one) ≠ [] := by
      intro h0
      have := congrArg List.length h0
      simp at this
      omega
    unfold constVec newVecDense
    rw [if_neg hne]
    refine ⟨_, rfl, rfl, ?_, ?_, rfl⟩
    · simp [Expr.Shape, Con.right, Expr.grid, Vec.entries]
    · simp only [Expr.All, Con.right, Expr.grid, Vec.entries]
      intro row hrow b hb
      simp at hrow
      obtain ⟨-, rfl⟩ := hrow
      simpa using hb
  | m a =>
    have h : a.comparison (.s (.k x)) s = (do
        let cs ← constRows (← a.dims) x
        return .m ⟨a, .k cs, s⟩) := by
      unfold Mat.comparison
      rw [show a.check = .ok () from c1, Go.ok_bind, show (Expr.s (.k x)).check = .ok () from rfl,
        Go.ok_bind, hd, Go.ok_bind]
    show ∃ c, a.comparison _ s = _ ∧ _
    rw [h, show a.dims = .ok (r, k) from d1, Go.ok_bind]
    unfold constRows
    rw [if_neg (by simp only []; omega)]
    refine ⟨_, rfl, rfl, ?_, ?_, rfl⟩
    · refine ⟨by simp [Con.right, Expr.grid, Mat.entries], fun row hrow => ?_⟩
      simp [Con.right, Expr.grid, Mat.entries] at hrow
      rw [hrow.2]
      simp
    · intro row hrow b hb
      simp [Con.right, Expr.grid, Mat.entries] at hrow
      rw [hrow.2] at hb
      simp at hb
      exact hb.2

/-- C33: a constant compared with a vector of constants or variables is repeated. -/
theorem const_comparison {a : Vec R} (hr : 0 < r) (ha : (Expr.v a).Canon) (sa : (Expr.v a).Shape r 1)
    (hk : (∃ l, a = .k l) ∨ ∃ l, a = .v l) (x : R) (s : Sense) :
    ∃ c, (Expr.s (.k x)).comparison (.v a) s = .ok c ∧ c.right = .v a ∧ c.left.Shape r 1 ∧
      c.left.All (· = .k x) ∧ c.sense = s := by
  have c1 : a.check = .ok () := Expr.check_ok ha sa hr
  have key : ∀ {α : Type} (f : α → Scalar R) (l : List α), l.length = r →
      (Expr.v (.k (l.map fun _ => x))).Shape r 1 ∧
      (Expr.v (.k (l.map fun _ => x))).All (· = .k x) := by
    intro α f l hl
    refine ⟨by simp [Expr.Shape, Expr.grid, Vec.entries, hl], ?_⟩
    intro row hrow b hb
    simp [Expr.grid, Vec.entries] at hrow
    obtain ⟨-, rfl⟩ := hrow
    simpa using hb
  have hlen := sa.1
  rcases hk with ⟨l, rfl⟩ | ⟨l, rfl⟩
  · obtain ⟨k1, k2⟩ := key Scalar.k l (by simpa [Expr.grid, Vec.entries] using hlen)
    refine ⟨.v ⟨.k (l.map fun _ => x), .k l, s⟩, ?_, rfl, k1, k2, rfl⟩
    show (do Vec.check (.k l); _ : Go (Con R)) = _
    rw [c1]
    rfl
  · obtain ⟨k1, k2⟩ := key Scalar.var l (by simpa [Expr.grid, Vec.entries] using hlen)
    refine ⟨.v ⟨.k (l.map fun _ => x), .v l, s⟩, ?_, rfl, k1, k2, rfl⟩
    show (do Vec.check (.v l); _ : Go (Con R)) = _
    rw [c1]
    rfl

/-- C31, C33: vectors or matrices of different shapes are rejected with a dimension error. -/
theorem comparison_dimension {a e : Expr R} {r' k' : ℕ} (hr : 0 < r) (hr' : 0 < r') (ha : a.Canon)
    (sa : a.Shape r k) (he : e.Canon) (se : e.Shape r' k') (h1 : ∀ x, a ≠ .s x) (h2 : ∀ x, e ≠ .s x)
    (hne : (r, k) ≠ (r', k')) (s : Sense) : a.comparison e s = .error .dimension := by
  have c1 := Expr.check_ok ha sa hr
  have c2 := Expr.check_ok he se hr'
  have hs : ∀ {b : Expr R}, (∀ x, b ≠ .s x) → b.isScalarType = false := by
    intro b hb
    cases b with
    | s x => exact absurd rfl (hb x)
    | v x => rfl
    | m x => rfl
  have hd : checkDimCompare a e = .error .dimension := by
    unfold checkDimCompare
    rw [Expr.dims_ok ha sa hr, Expr.dims_ok he se hr', hs h1, hs h2]
    rw [Go.ok_bind, Go.ok_bind, if_neg (by simpa using hne)]
    rfl
  cases a with
  | s a => exact absurd rfl (h1 a)
  | v a =>
    show a.comparison e s = _
    unfold Vec.comparison
    rw [show a.check = .ok () from c1, Go.ok_bind, c2, Go.ok_bind, hd]
    rfl
  | m a =>
    show a.comparison e s = _
    unfold Mat.comparison
    rw [show a.check = .ok () from c1, Go.ok_bind, c2, Go.ok_bind, hd]
    rfl

/-- C31: the check for comparisons accepts exactly equal shapes and scalars. -/
theorem checkDimCompare_iff {a e : Expr R} {r' k' : ℕ} (hr : 0 < r) (hr' : 0 < r') (ha : a.Canon)
    (sa : a.Shape r k) (he : e.Canon) (se : e.Shape r' k') :
    checkDimCompare a e = .ok () ↔
      (r = r' ∧ k = k') ∨ (∃ x, a = .s x) ∨ ∃ x, e = .s x := by
  have hs : ∀ b : Expr R, b.isScalarType = true ↔ ∃ x, b = .s x := by
    intro b
    cases b <;> simp [Expr.isScalarType]
  unfold checkDimCompare
  rw [Expr.dims_ok ha sa hr, Expr.dims_ok he se hr', Go.ok_bind, Go.ok_bind, ← hs, ← hs]
  by_cases h : (r, k) = (r', k') ∨ a.isScalarType = true ∨ e.isScalarType = true
  · rw [if_pos h]
    simp only [Prod.mk.injEq] at h
    simpa [Go.pure_eq] using h
  · rw [if_neg h]
    simp only [Prod.mk.injEq] at h
    simpa [Go.throw_eq] using h

end Struct

section Value
variable {R : Type} [Field R] [LinearOrder R] {r k : ℕ}

/-- C33 for every kind: the constraint is satisfied exactly by the assignments for which the entries
compare as asked.  Missing: the pairs of kinds that are not supported (`comparison_false`). -/
theorem comparison_sat_partial {a e : Expr R} (hr : 0 < r) (ha : a.Canon) (sa : a.Shape r k)
    (he : e.Canon) (se : e.Shape r k) (hc : Comparable a e) (s : Sense) :
    ∃ c, a.comparison e s = .ok c ∧ ∀ ρ, c.Sat ρ ↔
      ∀ i j x y, a.entry i j = some x → e.entry i j = some y → s.Holds (x.value ρ) (y.value ρ) := by
  obtain ⟨c, h1, h2, h3, h4⟩ := comparison_sides hr ha sa he se hc s
  refine ⟨c, h1, fun ρ => ?_⟩
  unfold Con.Sat
  rw [h2, h3, h4, sa.grid_eq, se.grid_eq, List.forall₂_map_left_iff, List.forall₂_map_right_iff,
    List.forall₂_same]
  simp only [List.forall₂_map_left_iff, List.forall₂_map_right_iff, List.forall₂_same, List.mem_range]
  constructor
  · intro h i j x y hx hy
    by_cases hij : i < r ∧ j < k
    · have := h i hij.1 j hij.2
      rw [sa.entryD_some hij.1 hij.2, Option.some.injEq] at hx
      rw [se.entryD_some hij.1 hij.2, Option.some.injEq] at hy
      rwa [hx, hy] at this
    · rw [sa.entry_none hij] at hx
      cases hx
  · intro h i hi j hj
    exact h i j _ _ (sa.entryD_some hi hj) (se.entryD_some hi hj)

/-- C33: `a <= e` and `e >= a` have the same solutions when both calls are supported. -/
theorem lessEq_greaterEq_array_partial {a e : Expr R} (hr : 0 < r) (ha : a.Canon) (sa : a.Shape r k)
    (he : e.Canon) (se : e.Shape r k) (h1 : Comparable a e) (h2 : Comparable e a) :
    ∃ c c', a.lessEq e = .ok c ∧ e.greaterEq a = .ok c' ∧ ∀ ρ, c.Sat ρ ↔ c'.Sat ρ := by
  obtain ⟨c, k1, k2⟩ := comparison_sat_partial hr ha sa he se h1 .le
  obtain ⟨c', k3, k4⟩ := comparison_sat_partial hr he se ha sa h2 .ge
  refine ⟨c, c', k1, k3, fun ρ => ?_⟩
  rw [k2, k4]
  exact ⟨fun h i j x y hx hy => h i j y x hy hx, fun h i j x y hx hy => h i j y x hy hx⟩

/-- C33: comparison of a vector or matrix with a constant. -/
theorem comparison_const_sat_partial {a : Expr R} (hr : 0 < r) (hk : 0 < k) (ha : a.Canon)
    (sa : a.Shape r k) (hs : ∀ x, a ≠ .s x) (hv : ∀ l, a ≠ .v (.v l)) (x : R) (s : Sense) :
    ∃ c, a.comparison (.s (.k x)) s = .ok c ∧ ∀ ρ, c.Sat ρ ↔
      ∀ i j y, a.entry i j = some y → s.Holds (y.value ρ) x := by
  obtain ⟨c, h1, h2, h3, h4, h5⟩ := comparison_const hr hk ha sa hs hv x s
  have hent : ∀ i j, i < r → j < k → c.right.entryD i j = .k x := by
    intro i j hi hj
    obtain ⟨b, hb, -, hb'⟩ := ((EArr.self h3).and_all h4).get hi hj
    unfold Expr.entryD
    rw [hb, Option.getD_some, hb']
    simp [exactNum]
  refine ⟨c, h1, fun ρ => ?_⟩
  unfold Con.Sat
  rw [h2, h5, sa.grid_eq, h3.grid_eq, List.forall₂_map_left_iff, List.forall₂_map_right_iff,
    List.forall₂_same]
  simp only [List.forall₂_map_left_iff, List.forall₂_map_right_iff, List.forall₂_same, List.mem_range]
  have hv : (Scalar.k x).value ρ = x := by simp [Scalar.value]
  constructor
  · intro h i j y hy
    by_cases hij : i < r ∧ j < k
    · have := h i hij.1 j hij.2
      rw [sa.entryD_some hij.1 hij.2, Option.some.injEq] at hy
      rwa [hy, hent i j hij.1 hij.2, hv] at this
    · rw [sa.entry_none hij] at hy
      cases hy
  · intro h i hi j hj
    rw [hent i j hi hj, hv]
    exact h i j _ (sa.entryD_some hi hj)

/-- C33: comparison of a constant with a vector of constants or variables. -/
theorem const_comparison_sat_partial {a : Vec R} (hr : 0 < r) (ha : (Expr.v a).Canon)
    (sa : (Expr.v a).Shape r 1) (hk : (∃ l, a = .k l) ∨ ∃ l, a = .v l) (x : R) (s : Sense) :
    ∃ c, (Expr.s (.k x)).comparison (.v a) s = .ok c ∧ ∀ ρ, c.Sat ρ ↔
      ∀ i y, (Expr.v a).entry i 0 = some y → s.Holds x (y.value ρ) := by
  obtain ⟨c, h1, h2, h3, h4, h5⟩ := const_comparison hr ha sa hk x s
  have hent : ∀ i, i < r → c.left.entryD i 0 = .k x := by
    intro i hi
    obtain ⟨b, hb, -, hb'⟩ := ((EArr.self h3).and_all h4).get hi (j := 0) (by decide)
    unfold Expr.entryD
    rw [hb, Option.getD_some, hb']
  refine ⟨c, h1, fun ρ => ?_⟩
  unfold Con.Sat
  rw [h2, h5, sa.grid_eq, h3.grid_eq, List.forall₂_map_left_iff, List.forall₂_map_right_iff,
    List.forall₂_same]
  simp only [List.forall₂_map_left_iff, List.forall₂_map_right_iff, List.forall₂_same, List.mem_range]
  have hv : (Scalar.k x).value ρ = x := by simp [Scalar.value]
  constructor
  · intro h i y hy
    by_cases hi : i < r
    · have := h i hi 0 (by decide)
      rw [sa.entryD_some hi (by decide), Option.some.injEq] at hy
      rwa [hy, hent i hi, hv] at this
    · rw [sa.entry_none (by omega)] at hy
      cases hy
  · intro h i hi j hj
    obtain rfl : j = 0 := by omega
    rw [hent i hi, hv]
    exact h i _ (sa.entryD_some hi (by decide))

end Value

/-- C33 is false for the other pairs of kinds: they are rejected, in one direction only. -/
theorem comparison_false :
    (Expr.v wVm).lessEq (.v wVp) = .error .unsupported ∧
    (Expr.v wVp).greaterEq (.v wVm) = .ok (.v ⟨wVp, wVm, .ge⟩) ∧
    (Expr.v wVv).lessEq (.s (.k 1)) = .error .unsupported ∧
    (Expr.s (.k 1)).greaterEq (.v wVv) = .ok (.v ⟨.k [1, 1], wVv, .ge⟩) ∧
    (Expr.s (.var wx)).lessEq (.v wVk) = .error .unsupported ∧
    (Expr.m wMp).lessEq (.m wMv) = .error .unsupported ∧
    (Expr.m wMv).greaterEq (.m wMp) = .ok (.m ⟨wMv, wMp, .ge⟩) := by decide +kernel

/-! ## Examples -/

/-- `(3x, 2xy) <= (2, 3)` and the matrix constraint `[x y; y z] >= [1 2; 3 4]`. -/
def wcs : List (Con ℚ) := [.v ⟨wVm, wVk, .le⟩, .m ⟨wMv, wMk, .ge⟩, .s wc2]

theorem wcs_canon : ∀ c ∈ wcs, c.Canon := by
  intro c hc
  simp only [wcs, List.mem_cons, List.not_mem_nil, or_false] at hc
  rcases hc with rfl | rfl | rfl
  · exact ⟨Expr.okDeg_canon 2 (by decide +kernel), Expr.okDeg_canon 2 (by decide +kernel),
      ⟨2, 1, by decide +kernel, by decide +kernel, by decide, by decide⟩, Or.inr (Or.inl rfl)⟩
  · exact ⟨Expr.okDeg_canon 2 (by decide +kernel), Expr.okDeg_canon 2 (by decide +kernel),
      ⟨2, 2, by decide +kernel, by decide +kernel, by decide, by decide⟩, Or.inr (Or.inr rfl)⟩
  · exact ⟨Expr.okDeg_canon 2 (by decide +kernel), Expr.okDeg_canon 2 (by decide +kernel),
      ⟨1, 1, by decide +kernel, by decide +kernel, by decide, by decide⟩, Or.inr (Or.inr rfl)⟩

example : ∃ l, compileAll wcs = .ok l ∧ ∀ ρ, (∀ s ∈ l, s.Sat ρ) ↔ ∀ c ∈ wcs, c.Sat ρ :=
  compile_feasible_partial wcs_canon

example : compileAll wcs = .ok
    [⟨.mono (wm1 3 0 1), .k 2, .le⟩, ⟨.mono (wm2 2 0 1 1 1), .k 3, .le⟩,
     ⟨.var wx, .k 1, .ge⟩, ⟨.var wy, .k 2, .ge⟩, ⟨.var wy, .k 3, .ge⟩, ⟨.var wz, .k 4, .ge⟩, wc2] := by
  decide +kernel

example (s : Sense) : ∃ c, (Expr.v wVp).comparison (.v wVm) s = .ok c ∧ ∀ ρ, c.Sat ρ ↔
    ∀ i j x y, (Expr.v wVp).entry i j = some x → (Expr.v wVm).entry i j = some y →
      s.Holds (x.value ρ) (y.value ρ) :=
  comparison_sat_partial (r := 2) (k := 1) (by decide) (Expr.okDeg_canon 2 (by decide +kernel))
    (by decide +kernel) (Expr.okDeg_canon 2 (by decide +kernel)) (by decide +kernel)
    (show Comparable (.v wVp) (.v wVm) from trivial) s

/-- The vector constraint `(2x, -x) <= (6, 1)` implies `x <= 4`. -/
example : Con.implies (.v ⟨.m [wm1 2 0 1, wm1 (-1) 0 1], .k [6, 1], .le⟩) (.s ⟨.var wx, .k (4 : ℚ), .le⟩)
    = .ok true := by decide +kernel

end Verif
