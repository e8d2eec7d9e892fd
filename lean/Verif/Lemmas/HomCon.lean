import Verif.Lemmas.HomArrayMul

/-!
# Maps between number types: constraints

Every function of `Model/Constraint` commutes with a `NumHom`, apart from `ImpliesThisIsAlsoSatisfied`, which
divides: there the coefficients divided by must not be zero.
-/

namespace Verif

set_option linter.unusedSimpArgs false

variable {R S : Type}

def SCon.mapNum (f : Recode R S) (c : SCon R) : SCon S := ⟨c.lhs.mapNum f, c.rhs.mapNum f, c.sense⟩
def VCon.mapNum (f : Recode R S) (c : VCon R) : VCon S := ⟨c.lhs.mapNum f, c.rhs.mapNum f, c.sense⟩
def MCon.mapNum (f : Recode R S) (c : MCon R) : MCon S := ⟨c.lhs.mapNum f, c.rhs.mapNum f, c.sense⟩
def Con.mapNum (f : Recode R S) : Con R → Con S
  | .s c => .s (c.mapNum f)
  | .v c => .v (c.mapNum f)
  | .m c => .m (c.mapNum f)

@[simp] theorem Con.mapNum_s (f : Recode R S) (c) : (Con.s c).mapNum f = .s (c.mapNum f) := rfl
@[simp] theorem Con.mapNum_v (f : Recode R S) (c) : (Con.v c).mapNum f = .v (c.mapNum f) := rfl
@[simp] theorem Con.mapNum_m (f : Recode R S) (c) : (Con.m c).mapNum f = .m (c.mapNum f) := rfl

theorem go_id {α : Type} {x' x : Go α} (h : x' = id <$> x) : x' = x := by simpa using h

namespace NumHom

variable [GoNum R] [GoNum S] (h : NumHom R S)

theorem con_left (c : Con R) : (c.mapNum h.f).left = c.left.mapNum h.f := by cases c <;> rfl
theorem con_right (c : Con R) : (c.mapNum h.f).right = c.right.mapNum h.f := by cases c <;> rfl

/-! ## Comparison -/

theorem isScalarType (e : Expr R) : (e.mapNum h.f).isScalarType = e.isScalarType := by cases e <;> rfl

theorem checkDimCompare (a e : Expr R) :
    Verif.checkDimCompare (a.mapNum h.f) (e.mapNum h.f) = Verif.checkDimCompare a e := by
  simp only [Verif.checkDimCompare, h.expr_dims, h.isScalarType]

theorem scalar_comparison (a : Scalar R) (e : Expr R) (sn : Sense) :
    (a.mapNum h.f).comparison (e.mapNum h.f) sn = Con.mapNum h.f <$> a.comparison e sn := by
  rw [Scalar.comparison.eq_def, Scalar.comparison.eq_def]
  refine go_bind0 (h.scalar_check a) fun _ => go_bind0 (h.expr_check e) fun _ => ?_
  rcases e with e | (l | l | l | l) | e <;> cases a <;>
    simp [Con.mapNum, SCon.mapNum, VCon.mapNum, Function.comp_def] <;> rfl

theorem constVec (n : Nat) (c : R) : Verif.constVec n (h.f c) = List.map h.f <$> Verif.constVec n c := by
  have := h.newVecDense (List.replicate n (GoNum.mul c GoNum.one))
  simpa [Verif.constVec, h.mul, h.one] using this

theorem vec_comparison (a : Vec R) (e : Expr R) (sn : Sense) :
    (a.mapNum h.f).comparison (e.mapNum h.f) sn = Con.mapNum h.f <$> a.comparison e sn := by
  rw [Vec.comparison.eq_def, Vec.comparison.eq_def]
  refine go_bind0 (h.vec_check a) fun _ => go_bind0 (h.expr_check e) fun _ =>
    go_bind0 (h.checkDimCompare (.v a) e) fun _ => ?_
  rcases e with (c | e | e | e) | (l | l | l | l) | e <;> cases a <;> first
    | rfl
    | exact go_bind0 (h.vec_len (.k _)) fun n => go_bind _ (h.constVec n c) fun _ => rfl
    | exact go_bind0 (h.vec_len (.m _)) fun n => go_bind _ (h.constVec n c) fun _ => rfl
    | exact go_bind0 (h.vec_len (.p _)) fun n => go_bind _ (h.constVec n c) fun _ => rfl

theorem mat_comparison (a : Mat R) (e : Expr R) (sn : Sense) :
    (a.mapNum h.f).comparison (e.mapNum h.f) sn = Con.mapNum h.f <$> a.comparison e sn := by
  rw [Mat.comparison.eq_def, Mat.comparison.eq_def]
  refine go_bind0 (h.mat_check a) fun _ => go_bind0 (h.expr_check e) fun _ =>
    go_bind0 (h.checkDimCompare (.m a) e) fun _ => ?_
  rcases e with (c | e | e | e) | e | (l | l | l | l) <;> cases a <;> first
    | rfl
    | exact go_bind0 (h.mat_dims (.k _)) fun n => go_bind _ (h.constRows n c) fun _ => rfl
    | exact go_bind0 (h.mat_dims (.v _)) fun n => go_bind _ (h.constRows n c) fun _ => rfl
    | exact go_bind0 (h.mat_dims (.m _)) fun n => go_bind _ (h.constRows n c) fun _ => rfl
    | exact go_bind0 (h.mat_dims (.p _)) fun n => go_bind _ (h.constRows n c) fun _ => rfl

theorem comparison (a e : Expr R) (sn : Sense) :
    (a.mapNum h.f).comparison (e.mapNum h.f) sn = Con.mapNum h.f <$> a.comparison e sn := by
  cases a
  · exact h.scalar_comparison _ _ _
  · exact h.vec_comparison _ _ _
  · exact h.mat_comparison _ _ _

/-! ## Check, IsLinear, Variables -/

theorem scon_check (c : SCon R) : (c.mapNum h.f).check = c.check := by
  simp only [SCon.check, SCon.mapNum, h.scalar_check]

theorem vcon_check (c : VCon R) : (c.mapNum h.f).check = c.check := by
  simp only [VCon.check, VCon.mapNum, h.vec_check, h.vec_dims]

theorem mcon_check (c : MCon R) : (c.mapNum h.f).check = c.check := by
  simp only [MCon.check, MCon.mapNum, h.mat_check, h.mat_dims]

theorem con_check (c : Con R) : (c.mapNum h.f).check = c.check := by
  cases c
  · exact h.scon_check _
  · exact h.vcon_check _
  · exact h.mcon_check _

theorem expr_isLinear (e : Expr R) : (e.mapNum h.f).isLinear = e.isLinear := by
  simp only [Expr.isLinear, h.expr_degree]

theorem con_isLinear (c : Con R) : (c.mapNum h.f).isLinear = c.isLinear := by
  simp only [Con.isLinear, h.con_left, h.con_right, h.expr_isLinear]

theorem requireLinear (c : Con R) : (c.mapNum h.f).requireLinear = c.requireLinear := by
  simp only [Con.requireLinear, h.con_isLinear]

theorem addKey (hk : h.Keys) (l : List (Var R)) (v : Var R) :
    Verif.addKey (l.map (Var.mapNum h.f)) (v.mapNum h.f) = (Verif.addKey l v).map (Var.mapNum h.f) := by
  rw [Verif.addKey, Verif.addKey, List.any_map]
  have : ((fun w : Var S => w.keyEq (v.mapNum h.f)) ∘ Var.mapNum h.f) = fun w => w.keyEq v := by
    funext w; exact hk w v
  rw [this]
  by_cases hw : l.any (fun w => w.keyEq v) <;> simp [hw]

theorem con_variables (hk : h.Keys) (c : Con R) : (c.mapNum h.f).variables = List.map (Var.mapNum h.f) <$> c.variables := by
  rw [Con.variables, Con.variables, h.con_left, h.con_right]
  refine go_bind0 (h.con_check c) fun _ => go_bind _ (h.expr_variables _) fun l => go_bind _ (h.expr_variables _) fun r => ?_
  rw [← List.map_append]
  simp only [map_pure]
  congr 1
  have : ∀ (xs acc : List (Var R)), (xs.map (Var.mapNum h.f)).foldl Verif.addKey (acc.map (Var.mapNum h.f)) =
      (xs.foldl Verif.addKey acc).map (Var.mapNum h.f) := by
    intro xs
    induction xs with
    | nil => intro acc; rfl
    | cons x xs ih =>
      intro acc
      rw [List.map_cons, List.foldl_cons, List.foldl_cons, h.addKey hk, ih]
  exact this _ []

/-! ## ScalarConstraint -/

theorem scon_simplify (c : SCon R) : (c.mapNum h.f).simplify = SCon.mapNum h.f <$> c.simplify := by
  rcases c with ⟨l, r, sn⟩
  have hg : (do
      let d ← (l.mapNum h.f).minus (r.mapNum h.f)
      let l ← d.plusF64 (← (r.mapNum h.f).constant)
      return ⟨l, .k (← (r.mapNum h.f).constant), sn⟩) = SCon.mapNum h.f <$> (do
      let d ← l.minus r
      let l ← d.plusF64 (← r.constant)
      return ⟨l, .k (← r.constant), sn⟩) :=
    go_bind _ (h.minus l r) fun d => go_bind _ (h.constant r) fun _ => go_bind _ (h.plusF64 d _) fun _ =>
      go_bind _ (h.constant r) fun _ => rfl
  cases r
  · rfl
  · exact hg
  · exact hg
  · exact hg

theorem scon_linearIneq (c : SCon R) (w : List (List (Var R))) :
    (c.mapNum h.f).linearIneq (w.map (·.map (Var.mapNum h.f))) =
      Prod.map (List.map h.f) h.f <$> c.linearIneq w := by
  refine go_bind0 (h.scon_check c) fun _ => go_bind0 (h.requireLinear (.s c)) fun _ =>
    go_bind _ (h.minus _ _) fun d => go_bind _ (h.linearCoeff d w) fun A =>
    go_bind _ (h.constant c.rhs) fun r => go_bind _ (h.constant c.lhs) fun l => ?_
  have hs : (c.mapNum h.f).sense = c.sense := rfl
  rw [hs]
  by_cases hg : c.sense = .ge
  · simp [hg, h.mul, h.sub, h.neg, h.negOne, Function.comp_def]
  · simp [hg, h.sub]

theorem scon_linearEq (c : SCon R) (w : List (List (Var R))) :
    (c.mapNum h.f).linearEq (w.map (·.map (Var.mapNum h.f))) =
      Prod.map (List.map h.f) h.f <$> c.linearEq w := by
  rw [SCon.linearEq, SCon.linearEq]
  refine go_bind0 (h.scon_check c) fun _ => go_bind0 (h.requireLinear (.s c)) fun _ => ?_
  have hs : (c.mapNum h.f).sense = c.sense := rfl
  rw [hs]
  by_cases hg : c.sense ≠ .eq
  · simp [hg]; rfl
  simp only [hg, if_false]
  refine go_bind _ (h.minus _ _) fun d => go_bind _ (h.linearCoeff d w) fun A =>
    go_bind _ (h.constant c.rhs) fun r => go_bind _ (h.constant c.lhs) fun l => ?_
  simp [h.sub]

theorem scon_substitute (c : SCon R) (v : Var R) (s : Scalar R) :
    (c.mapNum h.f).substitute (v.mapNum h.f) (s.mapNum h.f) = SCon.mapNum h.f <$> c.substitute v s :=
  go_bind0 (h.scon_check c) fun _ => go_bind _ (h.substitute c.lhs v s) fun _ =>
    go_bind _ (h.substitute c.rhs v s) fun _ => rfl

theorem scon_substMap (hk : h.Keys) (c : SCon R) (sm : SubMap R) :
    (c.mapNum h.f).substMap (sm.mapNum h.f) = SCon.mapNum h.f <$> c.substMap sm :=
  go_bind0 (h.scon_check c) fun _ => go_bind _ (h.substMap hk c.lhs sm) fun _ =>
    go_bind _ (h.substMap hk c.rhs sm) fun _ => rfl

theorem flipSense (s : Sense) (c : R) : Verif.flipSense s (h.f c) = Verif.flipSense s c := by
  simp only [Verif.flipSense, ← h.zero, h.lt]

theorem scon_scaleBy (c : SCon R) (a : R) : (c.mapNum h.f).scaleBy (h.f a) = SCon.mapNum h.f <$> c.scaleBy a := by
  refine go_bind0 (h.scon_check c) fun _ => go_bind _ (h.mulF64 c.lhs a) fun _ => go_bind _ (h.mulF64 c.rhs a) fun _ => ?_
  rw [h.flipSense]; rfl

theorem boundsImply (s t : Sense) (a b : R) :
    Verif.boundsImply s t (h.f a) (h.f b) = Verif.boundsImply s t a b := by
  simp only [Verif.boundsImply, h.le, h.feq]

theorem scon_isNonneg (hk : h.Keys) (c : SCon R) : (c.mapNum h.f).isNonneg = c.isNonneg := by
  apply go_id
  rw [SCon.isNonneg, SCon.isNonneg]
  refine go_bind0 (h.scon_check c) fun _ => go_bind _ (h.scon_simplify c) fun c => go_bind _ (h.con_variables hk (.s c)) fun vs => ?_
  rw [List.length_map]
  by_cases hv : vs.length ≠ 1
  · simp [hv]
  simp only [hv, if_false]
  refine go_bind0 (h.degree c.lhs) fun d => ?_
  by_cases hd : d ≠ 1
  · simp [hd]
  simp only [hd, if_false]
  rcases c with ⟨l, r | r | r | r, sn⟩
  · simp only [SCon.mapNum, Scalar.mapNum_k, ← h.zero, h.feq]
    by_cases hr : (!GoNum.feq r GoNum.zero) = true
    · simp [hr]
    simp only [hr]
    refine go_bind (List.map h.f) (h.linearCoeff l []) fun A => go_bind _ (goGet_hom _ _ _) fun a => ?_
    simp only [h.lt]; rfl
  · rfl
  · rfl
  · rfl

/-! ## VectorConstraint -/

theorem vcon_len (c : VCon R) : (c.mapNum h.f).len = c.len := by
  simp only [VCon.len, h.vcon_check]
  congr 1; funext _
  exact h.vec_len _

theorem vcon_dims (c : VCon R) : (c.mapNum h.f).dims = c.dims := by
  simp only [VCon.dims, h.vcon_check]
  congr 1; funext _
  exact h.vec_dims _

theorem vcon_atVec (c : VCon R) (i : Int) : (c.mapNum h.f).atVec i = SCon.mapNum h.f <$> c.atVec i :=
  go_bind0 (h.vcon_check c) fun _ => go_bind0 (h.vcon_dims c) fun _ => go_bind0 rfl fun _ =>
    go_bind _ (h.vec_atVec c.lhs i) fun _ => go_bind _ (h.vec_atVec c.rhs i) fun _ => rfl

theorem asVec (e : Expr R) : (e.mapNum h.f).asVec = Vec.mapNum h.f <$> e.asVec := by cases e <;> rfl
theorem asMat (e : Expr R) : (e.mapNum h.f).asMat = Mat.mapNum h.f <$> e.asMat := by cases e <;> rfl

theorem newLHS (c : VCon R) : (c.mapNum h.f).newLHS = Vec.mapNum h.f <$> c.newLHS :=
  go_bind _ (h.vec_constant c.rhs) fun k => go_bind _ (h.expr_minus (.v c.rhs) (.v (.k k))) fun r =>
    go_bind _ (h.asVec r) fun r => go_bind _ (h.expr_minus (.v c.lhs) (.v r)) fun d => h.asVec d

theorem newRHS (c : VCon R) : (c.mapNum h.f).newRHS = List.map h.f <$> c.newRHS := by
  rw [VCon.newRHS, VCon.newRHS]
  refine go_bind0 (h.vec_len c.lhs) fun n => ?_
  by_cases hn : n = 0
  · simp [hn]; rfl
  simp only [hn, if_false]
  refine go_bind _ (h.vec_constant c.rhs) fun rc => go_bind _ (h.vec_constant c.lhs) fun lc => ?_
  rw [List.length_map, List.length_map]
  by_cases hl : rc.length ≠ lc.length ∨ n ≠ rc.length
  · simp [hl]; rfl
  simp only [hl, if_false, map_pure]
  rw [List.zipWith_map, List.map_zipWith]
  simp only [h.sub]

theorem vcon_linearIneq (c : VCon R) (w : List (List (Var R))) :
    (c.mapNum h.f).linearIneq (w.map (·.map (Var.mapNum h.f))) =
      Prod.map (List.map (List.map h.f)) (List.map h.f) <$> c.linearIneq w := by
  rw [VCon.linearIneq, VCon.linearIneq]
  refine go_bind0 (h.vcon_check c) fun _ => go_bind0 (h.requireLinear (.v c)) fun _ => ?_
  have hs : (c.mapNum h.f).sense = c.sense := rfl
  rw [hs]
  by_cases he : c.sense = .eq
  · simp [he]; rfl
  simp only [he, if_false]
  refine go_bind _ (h.newLHS c) fun d => go_bind _ (h.vec_linearCoeff d w) fun A => go_bind _ (h.newRHS c) fun b => ?_
  by_cases hg : c.sense = .ge
  · simp [hg, h.mul, h.negOne, Function.comp_def]
  · simp [hg]

theorem vcon_linearEq (c : VCon R) (w : List (List (Var R))) :
    (c.mapNum h.f).linearEq (w.map (·.map (Var.mapNum h.f))) =
      Prod.map (List.map (List.map h.f)) (List.map h.f) <$> c.linearEq w := by
  rw [VCon.linearEq, VCon.linearEq]
  refine go_bind0 (h.vcon_check c) fun _ => go_bind0 (h.requireLinear (.v c)) fun _ => ?_
  have hs : (c.mapNum h.f).sense = c.sense := rfl
  rw [hs]
  by_cases he : c.sense ≠ .eq
  · simp [he]; rfl
  simp only [he, if_false]
  exact go_bind _ (h.newLHS c) fun d => go_bind _ (h.vec_linearCoeff d w) fun A => go_bind _ (h.newRHS c) fun b => rfl

theorem vcon_substitute (c : VCon R) (v : Var R) (s : Scalar R) :
    (c.mapNum h.f).substitute (v.mapNum h.f) (s.mapNum h.f) = VCon.mapNum h.f <$> c.substitute v s :=
  go_bind0 (h.vcon_check c) fun _ => go_bind _ (h.vec_substitute c.lhs v s) fun _ =>
    go_bind _ (h.vec_substitute c.rhs v s) fun _ => rfl

theorem vcon_substMap (hk : h.Keys) (c : VCon R) (sm : SubMap R) :
    (c.mapNum h.f).substMap (sm.mapNum h.f) = VCon.mapNum h.f <$> c.substMap sm :=
  go_bind0 (h.vcon_check c) fun _ => go_bind _ (h.vec_substMap hk c.lhs sm) fun _ =>
    go_bind _ (h.vec_substMap hk c.rhs sm) fun _ => rfl

theorem vcon_simplify (c : VCon R) : (c.mapNum h.f).simplify = VCon.mapNum h.f <$> c.simplify :=
  go_bind0 (h.vcon_check c) fun _ =>
    go_bind _ (h.vec_constant c.lhs) fun k => go_bind _ (h.expr_minus (.v c.lhs) (.v (.k k))) fun l =>
    go_bind _ (h.vec_constant c.rhs) fun k => go_bind _ (h.expr_minus (.v c.rhs) (.v (.k k))) fun r =>
    go_bind _ (h.expr_minus l r) fun nl =>
    go_bind _ (h.vec_constant c.rhs) fun k => go_bind _ (h.vec_constant c.lhs) fun k' =>
    go_bind _ (h.expr_minus (.v (.k k)) (.v (.k k'))) fun nr =>
    go_bind _ (h.asVec nl) fun _ => go_bind _ (h.asVec nr) fun _ => rfl

/-! ## MatrixConstraint -/

theorem mcon_dims (c : MCon R) : (c.mapNum h.f).dims = c.dims := by
  simp only [MCon.dims, h.mcon_check]
  congr 1; funext _
  exact h.mat_dims _

theorem mcon_at (c : MCon R) (i j : Int) : (c.mapNum h.f).at i j = SCon.mapNum h.f <$> c.at i j :=
  go_bind0 (h.mcon_check c) fun _ => go_bind0 (h.mcon_dims c) fun _ => go_bind0 rfl fun _ =>
    go_bind _ (h.mat_at c.lhs i j) fun _ => go_bind _ (h.mat_at c.rhs i j) fun _ => rfl

theorem mcon_substitute (c : MCon R) (v : Var R) (s : Scalar R) :
    (c.mapNum h.f).substitute (v.mapNum h.f) (s.mapNum h.f) = MCon.mapNum h.f <$> c.substitute v s :=
  go_bind0 (h.mcon_check c) fun _ => go_bind _ (h.mat_substitute c.lhs v s) fun _ =>
    go_bind _ (h.mat_substitute c.rhs v s) fun _ => rfl

theorem mcon_substMap (hk : h.Keys) (c : MCon R) (sm : SubMap R) :
    (c.mapNum h.f).substMap (sm.mapNum h.f) = MCon.mapNum h.f <$> c.substMap sm :=
  go_bind0 (h.mcon_check c) fun _ => go_bind _ (h.mat_substMap hk c.lhs sm) fun _ =>
    go_bind _ (h.mat_substMap hk c.rhs sm) fun _ => rfl

theorem mcon_simplify (c : MCon R) : (c.mapNum h.f).simplify = MCon.mapNum h.f <$> c.simplify :=
  go_bind _ (h.mat_constant c.lhs) fun k => go_bind _ (h.expr_minus (.m c.lhs) (.m (.k k))) fun l =>
    go_bind _ (h.mat_constant c.rhs) fun k => go_bind _ (h.expr_minus (.m c.rhs) (.m (.k k))) fun r =>
    go_bind _ (h.expr_minus l r) fun nl =>
    go_bind _ (h.mat_constant c.rhs) fun k => go_bind _ (h.mat_constant c.lhs) fun k' =>
    go_bind _ (h.expr_minus (.m (.k k)) (.m (.k k'))) fun nr =>
    go_bind _ (h.asMat nl) fun _ => go_bind _ (h.asMat nr) fun _ => rfl

/-! ## The interface -/

theorem con_substitute (c : Con R) (v : Var R) (s : Scalar R) :
    (c.mapNum h.f).substitute (v.mapNum h.f) (s.mapNum h.f) = Con.mapNum h.f <$> c.substitute v s := by
  cases c
  · exact go_bind _ (h.scon_substitute _ v s) fun _ => rfl
  · exact go_bind _ (h.vcon_substitute _ v s) fun _ => rfl
  · exact go_bind _ (h.mcon_substitute _ v s) fun _ => rfl

theorem con_substMap (hk : h.Keys) (c : Con R) (sm : SubMap R) :
    (c.mapNum h.f).substMap (sm.mapNum h.f) = Con.mapNum h.f <$> c.substMap sm := by
  cases c
  · exact go_bind _ (h.scon_substMap hk _ sm) fun _ => rfl
  · exact go_bind _ (h.vcon_substMap hk _ sm) fun _ => rfl
  · exact go_bind _ (h.mcon_substMap hk _ sm) fun _ => rfl

theorem con_simplify (c : Con R) : (c.mapNum h.f).simplify = Con.mapNum h.f <$> c.simplify := by
  cases c
  · exact go_bind _ (h.scon_simplify _) fun _ => rfl
  · exact go_bind _ (h.vcon_simplify _) fun _ => rfl
  · exact go_bind _ (h.mcon_simplify _) fun _ => rfl

theorem compile (c : Con R) : (c.mapNum h.f).compile = List.map (SCon.mapNum h.f) <$> c.compile := by
  cases c with
  | s c => rfl
  | v c => exact go_bind0 (h.vcon_len c) fun _ => go_mapM' (fun (i : Nat) => h.vcon_atVec c i) _
  | m c =>
    simp only [Con.mapNum_m, Con.compile, h.mcon_dims, map_bind]
    congr 1; funext d
    exact go_mapM' (F := fun ij : Nat × Nat => c.at ij.1 ij.2) (fun ij => h.mcon_at c ij.1 ij.2) _

theorem compileAll (cs : List (Con R)) :
    Verif.compileAll (cs.map (Con.mapNum h.f)) = List.map (SCon.mapNum h.f) <$> Verif.compileAll cs := by
  refine go_bind _ (go_mapM h.compile cs) fun l => ?_
  rw [← List.map_flatten]; rfl

/-! ## ImpliesThisIsAlsoSatisfied -/

end NumHom

section
variable [GoNum R]

/-- The coefficients that `ImpliesThisIsAlsoSatisfied` divides by have the property `P`. -/
def SCon.Coeffs (P : R → Prop) (c : SCon R) : Prop :=
  ∀ c', c.simplify = .ok c' → ∀ vs, Con.variables (.s c') = .ok vs → ∀ A, c'.lhs.linearCoeff [vs] = .ok A →
    ∀ x ∈ A, P x

end

namespace NumHom

variable [GoNum R] [GoNum S] (h : NumHom R S)

/-- The map respects division by numbers with the property `P`. -/
def Div (P : R → Prop) : Prop := ∀ b, P b → h.f (GoNum.div GoNum.one b) = GoNum.div GoNum.one (h.f b)

variable {h} {P : R → Prop}

theorem go_bind_ok {α β γ δ : Type} {x' : Go γ} {x : Go α} {k' : γ → Go δ} {k : α → Go β} {b : β → δ} (a : α → γ)
    (hx : x' = a <$> x) (hk : ∀ v, x = .ok v → k' (a v) = b <$> k v) : (x' >>= k') = b <$> (x >>= k) := by
  rw [hx]
  cases x with
  | error e => rfl
  | ok v => exact hk v rfl

theorem goGet_mem {α : Type} {l : List α} {i : Int} {x : α} (hx : goGet l i = .ok x) : x ∈ l := by
  rw [goGet] at hx
  split at hx
  · exact absurd hx (by simp [throw, throwThe, MonadExceptOf.throw])
  · cases hl : l[i.toNat]? with
    | none => rw [hl] at hx; exact absurd hx (by simp [throw, throwThe, MonadExceptOf.throw])
    | some y =>
      rw [hl] at hx
      cases hx
      exact List.mem_of_getElem? hl

theorem impliesS (hd : h.Div P) (hk : h.Keys) {c o : SCon R} (hc : c.Coeffs P) (ho : o.Coeffs P) :
    (c.mapNum h.f).impliesS (o.mapNum h.f) = c.impliesS o := by
  apply go_id
  rw [SCon.impliesS, SCon.impliesS]
  refine go_bind0 (h.scon_check c) fun _ => go_bind0 (h.scon_check o) fun _ =>
    go_bind_ok _ (h.scon_simplify c) fun c' hc' => go_bind_ok _ (h.scon_simplify o) fun o' ho' =>
    go_bind_ok _ (h.con_variables hk (.s c')) fun cv hcv => go_bind_ok _ (h.con_variables hk (.s o')) fun ov hov => ?_
  have hu := h.unionOfVariables_hom [cv, ov]
  simp only [List.map_cons, List.map_nil] at hu
  rw [hu, List.length_map, List.length_map, List.length_map]
  by_cases hl : cv.length = 1 ∧ ov.length = 1 ∧ (unionOfVariables [cv, ov]).length = 1
  · simp only [hl, and_self, if_true]
    refine go_bind_ok _ (h.linearCoeff c'.lhs [cv]) fun A hA => go_bind_ok _ (goGet_hom _ _ _) fun cc hcc =>
      go_bind_ok _ (h.linearCoeff o'.lhs [ov]) fun B hB => go_bind_ok _ (goGet_hom _ _ _) fun oc hoc => ?_
    rw [← hd cc (hc c' hc' cv hcv A hA cc (goGet_mem hcc)), ← hd oc (ho o' ho' ov hov B hB oc (goGet_mem hoc))]
    refine go_bind _ (h.scon_scaleBy c' _) fun c'' => go_bind _ (h.scon_scaleBy o' _) fun o'' =>
      go_bind _ (h.constant _) fun a => go_bind _ (h.constant _) fun b => ?_
    rw [id_map]
    exact h.boundsImply _ _ _ _
  · simp only [hl, if_false]
    rfl

theorem anyImplies (hd : h.Div P) (hk : h.Keys) {o : SCon R} (ho : o.Coeffs P) {α : Type} {F : α → Go (SCon R)}
    {G : α → Go (SCon S)} (hF : ∀ x, G x = SCon.mapNum h.f <$> F x) (l : List α)
    (hc : ∀ x ∈ l, ∀ c, F x = .ok c → c.Coeffs P) :
    Verif.anyImplies (o.mapNum h.f) (l.map G) = Verif.anyImplies o (l.map F) := by
  induction l with
  | nil => rfl
  | cons x l ih =>
    apply go_id
    rw [List.map_cons, List.map_cons, Verif.anyImplies, Verif.anyImplies]
    refine go_bind_ok _ (hF x) fun c hcx => ?_
    refine go_bind0 (impliesS hd hk (hc x List.mem_cons_self c hcx) ho) fun b => ?_
    cases b
    · simp only [id_map]
      exact ih (fun y hy => hc y (List.mem_cons_of_mem _ hy))
    · rfl

end NumHom

section
variable [GoNum R]

/-- The coefficients that `ImpliesThisIsAlsoSatisfied` divides by have the property `P`, in every entry. -/
def Con.Coeffs (P : R → Prop) : Con R → Prop
  | .s c => c.Coeffs P
  | .v c => ∀ i x, c.atVec i = .ok x → x.Coeffs P
  | .m c => ∀ i j x, c.at i j = .ok x → x.Coeffs P

/-- The coefficients that `ImpliesThisIsAlsoSatisfied` divides by are not zero, in every entry. -/
def Con.CoeffNonzero (c : Con R) : Prop := c.Coeffs (fun x => GoNum.feq x GoNum.zero = false)

end

namespace NumHom

variable [GoNum R] [GoNum S] {h : NumHom R S} {P : R → Prop}

theorem con_implies (hd : h.Div P) (hk : h.Keys) {c o : Con R} (hc : c.Coeffs P) (ho : o.Coeffs P) :
    (c.mapNum h.f).implies (o.mapNum h.f) = c.implies o := by
  have ho' := h.con_check o
  cases c with
  | s c =>
    cases o with
    | s o => exact impliesS hd hk hc ho
    | v o => exact go_id (go_bind0 (h.scon_check c) fun _ => go_bind0 ho' fun _ => go_bind _ (h.scon_simplify c) fun _ => rfl)
    | m o => exact go_id (go_bind0 (h.scon_check c) fun _ => go_bind0 ho' fun _ => go_bind _ (h.scon_simplify c) fun _ => rfl)
  | v c =>
    refine go_id (go_bind0 (h.vcon_check c) fun _ => go_bind0 ho' fun _ => ?_)
    cases o with
    | s o =>
      refine go_bind0 (h.vcon_len c) fun n => ?_
      rw [id_map]
      exact anyImplies hd hk ho (fun i : Nat => h.vcon_atVec c i) _ (fun i _ x hx => hc i x hx)
    | v o => rfl
    | m o => rfl
  | m c =>
    refine go_id (go_bind0 (h.mcon_check c) fun _ => go_bind0 ho' fun _ => ?_)
    cases o with
    | s o =>
      refine go_bind0 (h.mcon_dims c) fun n => ?_
      rw [id_map]
      exact anyImplies hd hk ho (fun ij : Nat × Nat => h.mcon_at c ij.1 ij.2) _ (fun i _ x hx => hc _ _ x hx)
    | v o => rfl
    | m o => rfl

end NumHom

end Verif
