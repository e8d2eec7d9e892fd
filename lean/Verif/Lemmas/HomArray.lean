import Verif.Lemmas.Hom

/-!
# Maps between number types: vectors and matrices

Every function of `Model/Array` commutes with a `NumHom`.
-/

namespace Verif

set_option linter.unusedSimpArgs false

variable {R S : Type}

def Vec.mapNum (f : Recode R S) : Vec R → Vec S
  | .k l => .k (l.map f)
  | .v l => .v (l.map (Var.mapNum f))
  | .m l => .m (l.map (Mono.mapNum f))
  | .p l => .p (l.map (Poly.mapNum f))

def Mat.mapNum (f : Recode R S) : Mat R → Mat S
  | .k rows => .k (rows.map (List.map f))
  | .v rows => .v (rows.map (List.map (Var.mapNum f)))
  | .m rows => .m (rows.map (List.map (Mono.mapNum f)))
  | .p rows => .p (rows.map (List.map (Poly.mapNum f)))

def Expr.mapNum (f : Recode R S) : Expr R → Expr S
  | .s a => .s (a.mapNum f)
  | .v a => .v (a.mapNum f)
  | .m a => .m (a.mapNum f)

@[simp] theorem Vec.mapNum_k (f : Recode R S) (l) : (Vec.k l).mapNum f = .k (l.map f) := rfl
@[simp] theorem Vec.mapNum_v (f : Recode R S) (l) : (Vec.v l).mapNum f = .v (l.map (Var.mapNum f)) := rfl
@[simp] theorem Vec.mapNum_m (f : Recode R S) (l) : (Vec.m l).mapNum f = .m (l.map (Mono.mapNum f)) := rfl
@[simp] theorem Vec.mapNum_p (f : Recode R S) (l) : (Vec.p l).mapNum f = .p (l.map (Poly.mapNum f)) := rfl
@[simp] theorem Mat.mapNum_k (f : Recode R S) (l) : (Mat.k l).mapNum f = .k (l.map (List.map f)) := rfl
@[simp] theorem Mat.mapNum_v (f : Recode R S) (l) : (Mat.v l).mapNum f = .v (l.map (List.map (Var.mapNum f))) := rfl
@[simp] theorem Mat.mapNum_m (f : Recode R S) (l) : (Mat.m l).mapNum f = .m (l.map (List.map (Mono.mapNum f))) := rfl
@[simp] theorem Mat.mapNum_p (f : Recode R S) (l) : (Mat.p l).mapNum f = .p (l.map (List.map (Poly.mapNum f))) := rfl
@[simp] theorem Expr.mapNum_s (f : Recode R S) (a) : (Expr.s a).mapNum f = .s (a.mapNum f) := rfl
@[simp] theorem Expr.mapNum_v (f : Recode R S) (a) : (Expr.v a).mapNum f = .v (a.mapNum f) := rfl
@[simp] theorem Expr.mapNum_m (f : Recode R S) (a) : (Expr.m a).mapNum f = .m (a.mapNum f) := rfl

/-! ## Lists -/

section lists
variable {α β γ δ : Type}

theorem goGet_hom (g : α → β) (l : List α) (i : Int) : goGet (l.map g) i = g <$> goGet l i := by
  rw [goGet, goGet]
  split
  · rfl
  · rw [List.getElem?_map]
    cases l[i.toNat]? <;> rfl

theorem goGet2_hom (g : α → β) (l : List (List α)) (i j : Int) :
    goGet2 (l.map (List.map g)) i j = g <$> goGet2 l i j := by
  rw [goGet2, goGet2, goGet_hom]
  simp only [bind_map_left, map_bind, goGet_hom]

theorem rowDims_hom (g : α → β) (l : List (List α)) : rowDims (l.map (List.map g)) = rowDims l := by
  cases l <;> simp [rowDims]

theorem checkRows_hom {F : α → Go Unit} {G : β → Go Unit} (g : α → β) (h : ∀ x, G (g x) = F x)
    (l : List (List α)) : checkRows (l.map (List.map g)) G = checkRows l F := by
  cases l with
  | nil => rfl
  | cons r0 l =>
    have h1 := go_forM (α := List α) (γ := List β) (a := List.map g)
      (F := fun row => if row.length ≠ r0.length then (throw .check : Go Unit) else pure ())
      (G := fun row => if row.length ≠ (r0.map g).length then (throw .check : Go Unit) else pure ())
      (fun row => by simp) (r0 :: l)
    have h2 := go_forM (α := List α) (γ := List β) (a := List.map g) (F := fun row => row.forM F)
      (G := fun row => row.forM G) (fun row => go_forM h row) (r0 :: l)
    rw [List.map_cons] at h1 h2
    rw [List.map_cons, checkRows, checkRows, h1, h2]

theorem go_mapM2 {F : α → Go β} {G : γ → Go δ} {a : α → γ} {b : β → δ} (h : ∀ x, G (a x) = b <$> F x)
    (l : List (List α)) : (l.map (List.map a)).mapM (·.mapM G) = List.map (List.map b) <$> l.mapM (·.mapM F) :=
  go_mapM (fun row => go_mapM h row) l

theorem zipIdx_hom (g : α → β) (l : List α) : (l.map g).zipIdx = l.zipIdx.map (Prod.map g id) := by
  rw [List.zipIdx_map]

theorem go_grid {F : α → Nat → Nat → Go β} {G : γ → Nat → Nat → Go δ} {a : α → γ} {b : β → δ}
    (h : ∀ x i j, G (a x) i j = b <$> F x i j) (l : List (List α)) :
    (l.map (List.map a)).zipIdx.mapM (fun ri => ri.1.zipIdx.mapM (fun xj => G xj.1 ri.2 xj.2)) =
      List.map (List.map b) <$> l.zipIdx.mapM (fun ri => ri.1.zipIdx.mapM (fun xj => F xj.1 ri.2 xj.2)) := by
  rw [zipIdx_hom]
  apply go_mapM
  intro ri
  rw [Prod.map_fst, Prod.map_snd, zipIdx_hom]
  apply go_mapM
  intro xj
  exact h xj.1 ri.2 xj.2

theorem go_range {F : Nat → Nat → Go α} {G : Nat → Nat → Go β} {b : α → β} (h : ∀ i j, G i j = b <$> F i j)
    (m n : Nat) : (List.range m).mapM (fun i => (List.range n).mapM (fun j => G i j)) =
      List.map (List.map b) <$> (List.range m).mapM (fun i => (List.range n).mapM (fun j => F i j)) := by
  apply go_mapM'
  intro i
  apply go_mapM'
  intro j
  exact h i j

end lists

namespace NumHom

variable [GoNum R] [GoNum S] (h : NumHom R S)

theorem vec_entries (a : Vec R) : (a.mapNum h.f).entries = a.entries.map (Scalar.mapNum h.f) := by
  cases a <;> simp [Vec.entries, Function.comp_def]

theorem mat_entries (a : Mat R) : (a.mapNum h.f).entries = a.entries.map (List.map (Scalar.mapNum h.f)) := by
  cases a <;> simp [Mat.entries, Function.comp_def]

/-! ## Check, Dims, At -/

theorem vec_check (a : Vec R) : (a.mapNum h.f).check = a.check := by
  cases a with
  | k l => rfl
  | v l => exact go_forM h.var_check l
  | m l => simp only [Vec.mapNum_m, Vec.check, List.map_eq_nil_iff]; rw [go_forM h.mono_check l]
  | p l => simp only [Vec.mapNum_p, Vec.check, List.map_eq_nil_iff]; rw [go_forM h.poly_check l]

theorem mat_check (a : Mat R) : (a.mapNum h.f).check = a.check := by
  cases a with
  | k l => rfl
  | v l => exact checkRows_hom _ h.var_check l
  | m l => exact checkRows_hom _ h.mono_check l
  | p l => exact checkRows_hom _ h.poly_check l

theorem expr_check (a : Expr R) : (a.mapNum h.f).check = a.check := by
  cases a
  · exact h.scalar_check _
  · exact h.vec_check _
  · exact h.mat_check _

theorem vec_len (a : Vec R) : (a.mapNum h.f).len = a.len := by
  have := h.vec_check a
  cases a with
  | p l =>
    simp only [Vec.mapNum_p] at this
    simp only [Vec.mapNum_p, Vec.len, this, List.length_map]
  | _ => simp [Vec.len]

theorem vec_dims (a : Vec R) : (a.mapNum h.f).dims = a.dims := by
  rw [Vec.dims, Vec.dims, h.vec_len]

theorem mat_dims (a : Mat R) : (a.mapNum h.f).dims = a.dims := by
  rw [Mat.dims.eq_def, Mat.dims.eq_def, h.mat_check]
  cases a <;> simp [rowDims_hom]

theorem expr_dims (a : Expr R) : (a.mapNum h.f).dims = a.dims := by
  cases a
  · rfl
  · exact h.vec_dims _
  · exact h.mat_dims _

theorem vec_atVec (a : Vec R) (i : Int) : (a.mapNum h.f).atVec i = Scalar.mapNum h.f <$> a.atVec i := by
  have hc := h.vec_check a
  have hd := h.vec_dims a
  cases a <;> simp only [Vec.mapNum_k, Vec.mapNum_v, Vec.mapNum_m, Vec.mapNum_p] at hc hd <;>
    simp only [Vec.mapNum_k, Vec.mapNum_v, Vec.mapNum_m, Vec.mapNum_p, Vec.atVec, List.length_map, goGet_hom, hc, hd,
      bind_map_left, map_bind, map_pure, Scalar.mapNum_k, Scalar.mapNum_var, Scalar.mapNum_mono, Scalar.mapNum_poly]

theorem vec_at (a : Vec R) (i j : Int) : (a.mapNum h.f).at i j = Scalar.mapNum h.f <$> a.at i j := by
  have hc := h.vec_check a
  have hd := h.vec_dims a
  have ha := h.vec_atVec a i
  cases a <;> simp only [Vec.mapNum_k, Vec.mapNum_v, Vec.mapNum_m, Vec.mapNum_p] at hc hd ha <;>
    simp only [Vec.mapNum_k, Vec.mapNum_v, Vec.mapNum_m, Vec.mapNum_p, Vec.at, List.length_map, goGet_hom, hc, hd, ha,
      bind_map_left, map_bind, map_pure, Scalar.mapNum_k, Scalar.mapNum_var, Scalar.mapNum_mono, Scalar.mapNum_poly]

theorem kToDense (rows : List (List R)) :
    Verif.kToDense (rows.map (List.map h.f)) = List.map (List.map h.f) <$> Verif.kToDense rows := by
  rw [Verif.kToDense, Verif.kToDense, rowDims_hom, map_bind]
  congr 1; funext d
  split
  · rfl
  · apply go_mapM
    intro row
    apply go_mapM'
    intro j
    rw [goGet_hom]

theorem mat_at (a : Mat R) (i j : Int) : (a.mapNum h.f).at i j = Scalar.mapNum h.f <$> a.at i j := by
  have hc := h.mat_check a
  have hd := h.mat_dims a
  cases a <;> simp only [Mat.mapNum_k, Mat.mapNum_v, Mat.mapNum_m, Mat.mapNum_p] at hc hd <;>
    simp only [Mat.mapNum_k, Mat.mapNum_v, Mat.mapNum_m, Mat.mapNum_p, Mat.at, h.kToDense, goGet2_hom, hc, hd,
      bind_map_left, map_bind, map_pure, Scalar.mapNum_k, Scalar.mapNum_var, Scalar.mapNum_mono, Scalar.mapNum_poly]

theorem expr_at (e : Expr R) (i j : Int) : (e.mapNum h.f).at i j = Scalar.mapNum h.f <$> e.at i j := by
  cases e with
  | s a => simp only [Expr.mapNum_s, Expr.at, h.scalar_check, map_bind, map_pure]
  | v a => exact h.vec_at a i j
  | m a => exact h.mat_at a i j

/-! ## Concretize -/

theorem scalar_toPoly (e : Scalar R) : (e.mapNum h.f).toPoly = e.toPoly.mapNum h.f := by
  cases e
  · rfl
  · exact h.toPoly _
  · rfl
  · rfl

theorem scalar_toMono (e : Scalar R) : (e.mapNum h.f).toMono = Mono.mapNum h.f <$> e.toMono := by
  cases e
  · rfl
  · simp [Scalar.toMono, h.toMono]
  · rfl
  · rfl

theorem scalar_toVar (e : Scalar R) : (e.mapNum h.f).toVar = Var.mapNum h.f <$> e.toVar := by cases e <;> rfl
theorem scalar_toK (e : Scalar R) : (e.mapNum h.f).toK = h.f <$> e.toK := by cases e <;> rfl
theorem isK (e : Scalar R) : (e.mapNum h.f).isK = e.isK := by cases e <;> rfl
theorem isVar (e : Scalar R) : (e.mapNum h.f).isVar = e.isVar := by cases e <;> rfl
theorem isMono (e : Scalar R) : (e.mapNum h.f).isMono = e.isMono := by cases e <;> rfl
theorem isPoly (e : Scalar R) : (e.mapNum h.f).isPoly = e.isPoly := by cases e <;> rfl

theorem any_hom {p : Scalar R → Bool} {q : Scalar S → Bool} (hp : ∀ e, q (e.mapNum h.f) = p e)
    (l : List (Scalar R)) : (l.map (Scalar.mapNum h.f)).any q = l.any p := by
  rw [List.any_map]; congr 1; funext e; exact hp e

theorem all_hom {p : Scalar R → Bool} {q : Scalar S → Bool} (hp : ∀ e, q (e.mapNum h.f) = p e)
    (l : List (Scalar R)) : (l.map (Scalar.mapNum h.f)).all q = l.all p := by
  rw [List.all_map]; congr 1; funext e; exact hp e

theorem concretizeVec (l : List (Scalar R)) :
    Verif.concretizeVec (l.map (Scalar.mapNum h.f)) = Vec.mapNum h.f <$> Verif.concretizeVec l := by
  rw [Verif.concretizeVec, Verif.concretizeVec]
  simp only [h.any_hom h.isPoly, h.any_hom h.isMono, h.any_hom h.isK, h.any_hom h.isVar, h.all_hom h.isVar,
    go_mapM h.scalar_toMono, go_mapM h.scalar_toVar, go_mapM h.scalar_toK, List.map_eq_nil_iff]
  by_cases hl : l = []
  · simp [hl]
  simp only [hl, if_false, pure_bind]
  split
  · simp [Function.comp_def, h.scalar_toPoly]
  split
  · simp
  split
  · simp
  split
  · simp
  · rfl

theorem concretizeMat (rows : List (List (Scalar R))) :
    Verif.concretizeMat (rows.map (List.map (Scalar.mapNum h.f))) = Mat.mapNum h.f <$> Verif.concretizeMat rows := by
  rw [Verif.concretizeMat.eq_def, Verif.concretizeMat.eq_def]
  simp only [← List.map_flatten, h.any_hom h.isPoly, h.any_hom h.isMono, h.any_hom h.isK, h.any_hom h.isVar,
    h.all_hom h.isVar, go_mapM2 h.scalar_toMono, go_mapM2 h.scalar_toVar, go_mapM2 h.scalar_toK]
  cases rows with
  | nil => rfl
  | cons r0 rows =>
    have h1 := go_forM (a := List.map (Scalar.mapNum h.f))
      (F := fun row => if row.length ≠ r0.length then (throw .other : Go Unit) else pure ())
      (G := fun row => if row.length ≠ (r0.map (Scalar.mapNum h.f)).length then (throw .other : Go Unit) else pure ())
      (fun row => by simp) (r0 :: rows)
    rw [List.map_cons] at h1
    simp only [List.map_cons, h1, map_bind]
    congr 1; funext _
    split
    · simp [Function.comp_def, h.scalar_toPoly]
    split
    · simp
    split
    · simp
    split
    · simp
    · rfl

theorem concretizeV (l : List (Scalar R)) :
    Verif.concretizeV (l.map (Scalar.mapNum h.f)) = Expr.mapNum h.f <$> Verif.concretizeV l := by
  rw [Verif.concretizeV, Verif.concretizeV, h.concretizeVec]
  simp only [bind_map_left, map_bind, h.vec_dims]
  congr 1; funext v
  congr 1; funext d
  split
  · simp [h.vec_at]
  · rfl

theorem concretizeM (rows : List (List (Scalar R))) :
    Verif.concretizeM (rows.map (List.map (Scalar.mapNum h.f))) = Expr.mapNum h.f <$> Verif.concretizeM rows := by
  rw [Verif.concretizeM, Verif.concretizeM, h.concretizeMat]
  simp only [bind_map_left, map_bind, h.mat_dims]
  congr 1; funext m
  congr 1; funext d
  split
  · simp [h.mat_at]
  split
  · rw [go_mapM' (F := fun (i : Nat) => m.at i 0) (b := Scalar.mapNum h.f) (fun i => h.mat_at m i 0)]
    simp only [bind_map_left, map_bind, h.concretizeVec, map_pure, Expr.mapNum_v]
  · rfl

/-! ## AsSimplifiedExpression -/

theorem vec_asSimplified (a : Vec R) : (a.mapNum h.f).asSimplified = Vec.mapNum h.f <$> a.asSimplified := by
  have hc := h.vec_check a
  cases a with
  | k l => rfl
  | v l => rfl
  | m l =>
    simp only [Vec.mapNum_m] at hc
    simp only [Vec.mapNum_m, Vec.asSimplified, hc, go_mapM h.mono_asSimplified, bind_map_left, map_bind, h.concretizeVec]
  | p l =>
    simp only [Vec.mapNum_p] at hc
    simp only [Vec.mapNum_p, Vec.asSimplified, hc, go_mapM h.poly_asSimplified, bind_map_left, map_bind, h.concretizeVec]

theorem mat_asSimplified (a : Mat R) : (a.mapNum h.f).asSimplified = Mat.mapNum h.f <$> a.asSimplified := by
  have hc := h.mat_check a
  cases a with
  | k l => rfl
  | v l => rfl
  | m l =>
    simp only [Mat.mapNum_m] at hc
    simp only [Mat.mapNum_m, Mat.asSimplified, hc, go_mapM2 h.mono_asSimplified, bind_map_left, map_bind, h.concretizeMat]
  | p l =>
    simp only [Mat.mapNum_p] at hc
    simp only [Mat.mapNum_p, Mat.asSimplified, hc, go_mapM2 h.poly_asSimplified, bind_map_left, map_bind, h.concretizeMat]

theorem expr_asSimplified (a : Expr R) : (a.mapNum h.f).asSimplified = Expr.mapNum h.f <$> a.asSimplified := by
  cases a with
  | s a => simp [Expr.asSimplified, h.asSimplified]
  | v a => simp [Expr.asSimplified, h.vec_asSimplified]
  | m a => simp [Expr.asSimplified, h.mat_asSimplified]

/-! ## Plus and Multiply of vectors -/

theorem vecPlusTemplate (a : Vec R) (e : Expr R) :
    Verif.vecPlusTemplate (a.mapNum h.f) (e.mapNum h.f) = Expr.mapNum h.f <$> Verif.vecPlusTemplate a e := by
  cases e with
  | s b =>
    simp only [Expr.mapNum_s, Verif.vecPlusTemplate, h.vec_entries]
    rw [go_mapM (F := fun x => x.plus b) (b := Scalar.mapNum h.f) (fun x => h.plus x b)]
    simp only [bind_map_left, map_bind, h.concretizeV]
  | v b =>
    simp only [Expr.mapNum_v, Verif.vecPlusTemplate, h.vec_entries, zipIdx_hom]
    rw [go_mapM (F := fun (xi : Scalar R × Nat) => do
      let y ← b.atVec xi.2
      xi.1.plus y) (b := Scalar.mapNum h.f)]
    · simp only [bind_map_left, map_bind, h.concretizeV]
    · intro xi
      simp only [Prod.map_fst, Prod.map_snd, id, h.vec_atVec, bind_map_left, map_bind, h.plus]
  | m b => rfl

theorem vecMulTemplate (a : Vec R) (e : Expr R) :
    Verif.vecMulTemplate (a.mapNum h.f) (e.mapNum h.f) = Expr.mapNum h.f <$> Verif.vecMulTemplate a e := by
  cases e with
  | s b =>
    simp only [Expr.mapNum_s, Verif.vecMulTemplate, h.vec_entries]
    rw [go_mapM (F := fun x => x.mul b) (b := Scalar.mapNum h.f) (fun x => h.smul x b)]
    simp only [bind_map_left, map_bind, h.concretizeV]
  | _ => rfl

theorem vec_plus (a : Vec R) (e : Expr R) :
    (a.mapNum h.f).plus (e.mapNum h.f) = Expr.mapNum h.f <$> a.plus e := by
  rw [Vec.plus, Vec.plus, h.vec_check, h.expr_check, h.vec_dims, h.expr_dims, h.vecPlusTemplate]
  simp only [bind_map_left, map_bind, h.expr_asSimplified]

theorem vec_mulScalar (a : Vec R) (b : Scalar R) :
    (a.mapNum h.f).mulScalar (b.mapNum h.f) = Expr.mapNum h.f <$> a.mulScalar b := by
  rw [Vec.mulScalar.eq_def, Vec.mulScalar.eq_def, h.vec_check, h.scalar_check, h.vec_dims]
  simp only [map_bind]
  congr 1; funext _
  congr 1; funext _
  congr 1; funext _
  congr 1; funext _
  have ht := h.vecMulTemplate a (.s b)
  cases a <;> cases b <;> first
    | rfl
    | (simp only [Expr.mapNum_s, Vec.mapNum_k, Vec.mapNum_v, Vec.mapNum_m, Vec.mapNum_p, Scalar.mapNum_k,
        Scalar.mapNum_var, Scalar.mapNum_mono, Scalar.mapNum_poly] at ht
       simp only [Vec.mapNum_k, Vec.mapNum_v, Vec.mapNum_m, Vec.mapNum_p, Scalar.mapNum_k,
        Scalar.mapNum_var, Scalar.mapNum_mono, Scalar.mapNum_poly, ht, bind_map_left, map_bind, h.expr_asSimplified])

theorem vec_mul (a : Vec R) (e : Expr R) :
    (a.mapNum h.f).mul (e.mapNum h.f) = Expr.mapNum h.f <$> a.mul e := by
  cases e with
  | s b => exact h.vec_mulScalar a b
  | v b =>
    simp only [Expr.mapNum_v]
    rw [Vec.mul.eq_def, Vec.mul.eq_def]
    simp only [h.vec_check, h.vec_dims, map_bind]
    congr 1; funext _
    congr 1; funext _
    congr 1; funext _
    congr 1; funext _
    congr 1; funext _
    have hs := h.vec_mulScalar a
    have hat := h.vec_atVec b
    cases a <;> cases b <;> first
      | rfl
      | (simp only [Vec.mapNum_k, Vec.mapNum_v, Vec.mapNum_m, Vec.mapNum_p] at hs hat
         simp only [Vec.mapNum_k, Vec.mapNum_v, Vec.mapNum_m, Vec.mapNum_p, goGet_hom, hat, bind_map_left, map_bind,
          ← Scalar.mapNum_k, ← Scalar.mapNum_var, ← Scalar.mapNum_poly, hs, h.expr_asSimplified, bind_assoc])
  | m b => simp only [Expr.mapNum_m, Vec.mul, h.vec_check, h.mat_check, h.vec_dims, h.mat_dims, map_bind, go_throw]

/-! ## Plus of matrices -/

theorem matPlusTemplate (a b : Mat R) :
    Verif.matPlusTemplate (a.mapNum h.f) (b.mapNum h.f) = Mat.mapNum h.f <$> Verif.matPlusTemplate a b := by
  rw [Verif.matPlusTemplate, Verif.matPlusTemplate]
  simp only [h.mat_check, h.mat_dims, map_bind]
  congr 1; funext _
  congr 1; funext _
  congr 1; funext da
  congr 1; funext db
  split
  · rfl
  · rw [go_range (F := fun (i j : Nat) => do
      let x ← a.at i j
      let y ← b.at i j
      x.plus y) (b := Scalar.mapNum h.f)]
    · simp only [bind_map_left, map_bind, h.concretizeMat]
    · intro i j
      simp only [h.mat_at, bind_map_left, map_bind, h.plus]

theorem constRows (d : Nat × Nat) (c : R) :
    Verif.constRows d (h.f c) = List.map (List.map h.f) <$> Verif.constRows d c := by
  rw [Verif.constRows, Verif.constRows]
  split
  · rfl
  · simp [h.mul, h.one]

theorem zipWith_add (a b : List (List R)) :
    List.zipWith (List.zipWith GoNum.add) (a.map (List.map h.f)) (b.map (List.map h.f)) =
      (List.zipWith (List.zipWith GoNum.add) a b).map (List.map h.f) := by
  rw [List.zipWith_map, List.map_zipWith]
  congr 1; funext r s
  rw [List.zipWith_map, List.map_zipWith]
  congr 1; funext x y
  rw [h.add]

theorem kmPlus (rows : List (List R)) (e : Expr R) :
    Verif.kmPlus (rows.map (List.map h.f)) (e.mapNum h.f) = Expr.mapNum h.f <$> Verif.kmPlus rows e := by
  rw [Verif.kmPlus.eq_def, Verif.kmPlus.eq_def]
  simp only [h.expr_check, rowDims_hom, h.expr_dims, map_bind]
  congr 1; funext _
  congr 1; funext d
  congr 1; funext _
  congr 1; funext _
  have ht := h.matPlusTemplate (.k rows)
  simp only [Mat.mapNum_k] at ht
  rcases e with (c | v | m | p) | (l | l | l | l) | b
  · simp only [Expr.mapNum_s, Scalar.mapNum_k, h.constRows, h.kToDense, bind_map_left, map_bind, h.zipWith_add,
      map_pure, Expr.mapNum_m, Mat.mapNum_k]
  · have hv := ht (.v (List.replicate d.1 (List.replicate d.2 v)))
    simp only [Mat.mapNum_v, List.map_replicate] at hv
    simp only [Expr.mapNum_s, Scalar.mapNum_var, hv, h.mat_asSimplified, bind_map_left, map_bind, map_pure, Expr.mapNum_m]
  · rfl
  · rfl
  · rfl
  · rfl
  · rfl
  · rfl
  · simp only [Expr.mapNum_m, ht, bind_map_left, map_bind, h.mat_asSimplified, map_pure]

theorem vmPlusK (rows : List (List (Var R))) (ks : List (List R)) :
    Verif.vmPlusK (rows.map (List.map (Var.mapNum h.f))) (ks.map (List.map h.f)) =
      Expr.mapNum h.f <$> Verif.vmPlusK rows ks := by
  rw [Verif.vmPlusK, Verif.vmPlusK]
  refine (congrArg (· >>= fun out => pure (Expr.m (.p out))) (go_grid (G := fun (x : Var S) i j => do
      let c ← goGet2 (ks.map (List.map h.f)) i j
      match ← x.plus (.k c) with
      | .poly p => pure p
      | _ => throw .typeAssert) (F := fun (x : Var R) i j => do
      let c ← goGet2 ks i j
      match ← x.plus (.k c) with
      | .poly p => pure p
      | _ => throw .typeAssert) (b := Poly.mapNum h.f) ?_ rows)).trans ?_
  · intro x i j
    rw [goGet2_hom]
    simp only [bind_map_left, map_bind, ← Scalar.mapNum_k, h.var_plus]
    congr 1; funext c
    congr 1; funext s
    cases s <;> rfl
  · simp only [bind_map_left, map_bind, map_pure, Expr.mapNum_m, Mat.mapNum_p]
    rfl

theorem vmPlus (rows : List (List (Var R))) (e : Expr R) :
    Verif.vmPlus (rows.map (List.map (Var.mapNum h.f))) (e.mapNum h.f) = Expr.mapNum h.f <$> Verif.vmPlus rows e := by
  have hc := h.mat_check (.v rows)
  simp only [Mat.mapNum_v] at hc
  rw [Verif.vmPlus.eq_def, Verif.vmPlus.eq_def]
  simp only [hc, h.expr_check, rowDims_hom, h.expr_dims, map_bind]
  congr 1; funext _
  congr 1; funext _
  congr 1; funext d
  congr 1; funext _
  congr 1; funext _
  rcases e with (c | v | m | p) | (l | l | l | l) | (l | l | l | l) <;> first
    | rfl
    | simp only [Expr.mapNum_s, Expr.mapNum_m, Mat.mapNum_k, Scalar.mapNum_k, h.constRows, h.vmPlusK, bind_map_left,
        map_bind]

theorem mmPlusEntry (m : Mono R) (ms : List (Mono R)) :
    Verif.mmPlusEntry (m.mapNum h.f) (ms.map (Mono.mapNum h.f)) = Poly.mapNum h.f <$> Verif.mmPlusEntry m ms := by
  have := h.simplify ⟨m :: ms⟩
  simp only [Poly.mapNum, List.map_cons] at this
  rw [Verif.mmPlusEntry, Verif.mmPlusEntry, this]
  simp [Poly.mapNum]

theorem mmPlus (rows : List (List (Mono R))) (e : Expr R) :
    Verif.mmPlus (rows.map (List.map (Mono.mapNum h.f))) (e.mapNum h.f) = Expr.mapNum h.f <$> Verif.mmPlus rows e := by
  have hc := h.mat_check (.m rows)
  simp only [Mat.mapNum_m] at hc
  rw [Verif.mmPlus.eq_def, Verif.mmPlus.eq_def]
  simp only [hc, h.expr_check, rowDims_hom, h.expr_dims, map_bind]
  congr 1; funext _
  congr 1; funext _
  congr 1; funext d
  congr 1; funext _
  congr 1; funext _
  rcases e with b | (l | l | l | l) | (l | l | l | ps)
  · simp only [Expr.mapNum_s, h.scalar_toPoly, Poly.mapNum_monos]
    rw [go_mapM2 (F := fun m => Verif.mmPlusEntry m b.toPoly.monos) (b := Poly.mapNum h.f)
      (fun m => h.mmPlusEntry m _)]
    simp only [bind_map_left, map_bind, map_pure, Expr.mapNum_m, Mat.mapNum_p]
  · rfl
  · rfl
  · rfl
  · rfl
  · rfl
  · rfl
  · rfl
  · simp only [Expr.mapNum_m, Mat.mapNum_p]
    rw [go_grid (G := fun (x : Mono S) i j => do
      let p ← goGet2 (ps.map (List.map (Poly.mapNum h.f))) i j
      Verif.mmPlusEntry x p.monos) (F := fun (x : Mono R) i j => do
      let p ← goGet2 ps i j
      Verif.mmPlusEntry x p.monos) (b := Poly.mapNum h.f)]
    · simp only [bind_map_left, map_bind, map_pure, Expr.mapNum_m, Mat.mapNum_p]
    · intro x i j
      simp only [goGet2_hom, bind_map_left, map_bind, Poly.mapNum_monos, h.mmPlusEntry]

theorem pmPlus (rows : List (List (Poly R))) (e : Expr R) :
    Verif.pmPlus (rows.map (List.map (Poly.mapNum h.f))) (e.mapNum h.f) = Expr.mapNum h.f <$> Verif.pmPlus rows e := by
  have hc := h.mat_check (.p rows)
  simp only [Mat.mapNum_p] at hc
  rw [Verif.pmPlus.eq_def, Verif.pmPlus.eq_def]
  simp only [hc, h.expr_check, rowDims_hom, h.expr_dims, map_bind]
  congr 1; funext _
  congr 1; funext _
  congr 1; funext d
  congr 1; funext _
  congr 1; funext _
  have hs : ∀ b : Scalar R, (rows.map (List.map (Poly.mapNum h.f))).mapM (·.mapM (fun p => p.plus (b.mapNum h.f))) =
      List.map (List.map (Scalar.mapNum h.f)) <$> rows.mapM (·.mapM (fun p => p.plus b)) :=
    fun b => go_mapM2 (fun p => h.poly_plus p b) rows
  rcases e with (c | v | m | p) | (l | l | l | l) | (ks | l | l | ps) <;> try rfl
  · have := hs (.k c)
    simp only [Scalar.mapNum_k] at this
    simp only [Expr.mapNum_s, Scalar.mapNum_k, this, bind_map_left, map_bind, h.concretizeM, h.expr_asSimplified]
  · have := hs (.poly m.toPoly)
    simp only [Scalar.mapNum_poly, ← h.mono_toPoly] at this
    simp only [Expr.mapNum_s, Scalar.mapNum_mono, this, bind_map_left, map_bind, h.concretizeM, h.expr_asSimplified]
  · have := hs (.poly p)
    simp only [Scalar.mapNum_poly] at this
    simp only [Expr.mapNum_s, Scalar.mapNum_poly, this, bind_map_left, map_bind, h.concretizeM, h.expr_asSimplified]
  · simp only [Expr.mapNum_m, Mat.mapNum_k]
    rw [go_grid (G := fun (x : Poly S) i j => do
      let c ← Mat.at (.k (ks.map (List.map h.f))) i j
      x.plus c) (F := fun (x : Poly R) i j => do
      let c ← Mat.at (.k ks) i j
      x.plus c) (b := Scalar.mapNum h.f)]
    · simp only [bind_map_left, map_bind, h.concretizeM, h.expr_asSimplified]
    · intro x i j
      simp only [← Mat.mapNum_k, h.mat_at, bind_map_left, map_bind, h.poly_plus]
  · simp only [Expr.mapNum_m, Mat.mapNum_p]
    rw [go_grid (G := fun (x : Poly S) i j => do
      let q ← goGet2 (ps.map (List.map (Poly.mapNum h.f))) i j
      x.plus (.poly q)) (F := fun (x : Poly R) i j => do
      let q ← goGet2 ps i j
      x.plus (.poly q)) (b := Scalar.mapNum h.f)]
    · simp only [bind_map_left, map_bind, h.concretizeM, h.expr_asSimplified]
    · intro x i j
      simp only [goGet2_hom, bind_map_left, map_bind, ← Scalar.mapNum_poly, h.poly_plus]

theorem mat_plus (a : Mat R) (e : Expr R) : (a.mapNum h.f).plus (e.mapNum h.f) = Expr.mapNum h.f <$> a.plus e := by
  cases a
  · exact h.kmPlus _ _
  · exact h.vmPlus _ _
  · exact h.mmPlus _ _
  · exact h.pmPlus _ _

/-! ## Plus on the interface -/

theorem plusExpr (p : Poly R) (e : Expr R) :
    (p.mapNum h.f).plusExpr (e.mapNum h.f) = Expr.mapNum h.f <$> p.plusExpr e := by
  cases e with
  | s b => simp only [Expr.mapNum_s, Poly.plusExpr, h.poly_plus, bind_map_left, map_bind, map_pure]
  | v b =>
    simp only [Expr.mapNum_v, Poly.plusExpr, h.poly_check, h.vec_check, h.vec_len, map_bind]
    congr 1; funext _
    congr 1; funext _
    congr 1; funext n
    split
    · simp only [h.vec_atVec, bind_map_left, map_bind, bind_assoc, pure_bind, h.poly_plus, ← Expr.mapNum_s,
        h.expr_asSimplified]
    · rw [go_mapM' (F := fun (i : Nat) => do p.plus (← b.atVec i)) (b := Scalar.mapNum h.f)]
      · simp only [bind_map_left, map_bind, h.concretizeV, h.expr_asSimplified, bind_assoc]
      · intro i
        simp only [h.vec_atVec, bind_map_left, map_bind, h.poly_plus]
  | m b =>
    simp only [Expr.mapNum_m, Poly.plusExpr, h.poly_check, h.mat_check, h.mat_dims, map_bind]
    congr 1; funext _
    congr 1; funext _
    congr 1; funext d
    split
    · simp only [h.mat_at, bind_map_left, map_bind, bind_assoc, pure_bind, h.poly_plus, ← Expr.mapNum_s,
        h.expr_asSimplified]
    · rw [go_range (F := fun (i j : Nat) => do p.plus (← b.at i j)) (b := Scalar.mapNum h.f)]
      · simp only [bind_map_left, map_bind, h.concretizeM, h.expr_asSimplified, bind_assoc]
      · intro i j
        simp only [h.mat_at, bind_map_left, map_bind, h.poly_plus]

theorem expr_plus (a e : Expr R) : (a.mapNum h.f).plus (e.mapNum h.f) = Expr.mapNum h.f <$> a.plus e := by
  rcases a with a | a | a
  · rcases e with b | b | b
    · have := h.plus a b
      rcases a with c | x | x | p
      · simp only [Scalar.mapNum_k] at this
        simp only [Expr.mapNum_s, Scalar.mapNum_k, Expr.plus, this, bind_map_left, map_bind, map_pure]
      · simp only [Scalar.mapNum_var] at this
        simp only [Expr.mapNum_s, Scalar.mapNum_var, Expr.plus, this, bind_map_left, map_bind, map_pure]
      · simp only [Scalar.mapNum_mono] at this
        simp only [Expr.mapNum_s, Scalar.mapNum_mono, Expr.plus, this, bind_map_left, map_bind, map_pure]
      · simp only [Scalar.mapNum_poly] at this
        simp only [Expr.mapNum_s, Scalar.mapNum_poly, Expr.plus, this, bind_map_left, map_bind, map_pure]
    · rcases a with c | x | x | p
      · have := h.vec_plus b (.s (.k c))
        simp only [Expr.mapNum_s, Scalar.mapNum_k] at this
        simp only [Expr.mapNum_s, Expr.mapNum_v, Scalar.mapNum_k, Expr.plus, h.vec_check, this, map_bind]
      · have := h.vec_plus b (.s (.var x))
        simp only [Expr.mapNum_s, Scalar.mapNum_var] at this
        simp only [Expr.mapNum_s, Expr.mapNum_v, Scalar.mapNum_var, Expr.plus, h.var_check, this, map_bind,
          bind_map_left, h.expr_asSimplified]
      · have h1 := h.expr_check (.v b)
        have h2 := h.expr_dims (.v b)
        simp only [Expr.mapNum_v] at h1 h2
        simp only [Expr.mapNum_s, Expr.mapNum_v, Scalar.mapNum_mono, Expr.plus, h.mono_check, h1, h2, map_bind,
          go_throw]
      · exact h.plusExpr p (.v b)
    · rcases a with c | x | x | p
      · have := h.mat_plus b (.s (.k c))
        simp only [Expr.mapNum_s, Scalar.mapNum_k] at this
        simp only [Expr.mapNum_s, Expr.mapNum_m, Scalar.mapNum_k, Expr.plus, h.mat_check, this, map_bind]
      · simp only [Expr.mapNum_s, Expr.mapNum_m, Scalar.mapNum_var, Expr.plus, h.var_check, map_bind, go_throw]
      · have h1 := h.expr_check (.m b)
        have h2 := h.expr_dims (.m b)
        simp only [Expr.mapNum_m] at h1 h2
        simp only [Expr.mapNum_s, Expr.mapNum_m, Scalar.mapNum_mono, Expr.plus, h.mono_check, h1, h2, map_bind,
          go_throw]
      · exact h.plusExpr p (.m b)
  · exact h.vec_plus a e
  · exact h.mat_plus a e

end NumHom

end Verif
