import Verif.Lemmas.FloatSimArr
import Verif.Lemmas.Fixed
import Verif.SpecArray

/-!
# Vectors and matrices on floats: powers, shapes, coefficients, derivatives, substitution, constraints

Continues `Lemmas/FloatSimArr`.
-/

set_option linter.unusedSectionVars false

namespace Verif

theorem Go.Rel.post {α β : Type} {A : α → β → Prop} {Q : β → Prop} {x : Go α} {y : Go β}
    (h : Go.Rel A x y) (hQ : Go.Post y Q) : Go.Rel (fun a b => A a b ∧ Q b) x y := by
  match x, y, h with
  | .ok a, .ok b, h => exact ⟨h, hQ b rfl⟩
  | .error e, .error _, h => exact h

variable {R K : Type} [GoNum R] [Field K] [LinearOrder K]
variable {F : FloatModel R K} {G : AddSubgroup K} {B B1 B2 : K}
variable [IsStrictOrderedRing K]
variable {𝒢 : Grids K} {i j N : ℕ}

/-! ## Power -/

theorem VecRel.power {n : Int} (hB : 1 ≤ B) (hf : Fit F (𝒢.g (n.toNat * i)) (B ^ n.toNat))
    {a : Vec R} {b : Vec K} (h : VecRel F (𝒢.g i) B a b) :
    Go.Rel (SRel F (𝒢.g (n.toNat * i)) (B ^ n.toNat)) (a.power n) (b.power n) := by
  have key : ∀ (l : List ℕ) (j : ℕ) (C : K) (x : Scalar R) (y : Scalar K), 0 ≤ C →
      Fit F (𝒢.g (j + l.length * i)) (C * B ^ l.length) → SRel F (𝒢.g j) C x y →
      Go.Rel (SRel F (𝒢.g (j + l.length * i)) (C * B ^ l.length))
        (l.foldlM (fun (acc : Scalar R) _ => do acc.mul (← a.atVec 0)) x)
        (l.foldlM (fun (acc : Scalar K) _ => do acc.mul (← b.atVec 0)) y) := by
    intro l
    induction l with
    | nil =>
      intro j C x y _ _ hxy
      have : Go.Rel (SRel F (𝒢.g j) C) (pure x) (pure y) := Go.rel_pure hxy
      simpa using this
    | cons k l ih =>
      intro j C x y hC hf hxy
      have e1 : j + (k :: l).length * i = (j + i) + l.length * i := by
        rw [List.length_cons]; ring
      have e2 : C * B ^ (k :: l).length = C * B * B ^ l.length := by
        rw [List.length_cons]; ring
      rw [e1, e2] at hf ⊢
      have hCB : 0 ≤ C * B := mul_nonneg hC (zero_le_one.trans hB)
      rw [List.foldlM_cons, List.foldlM_cons]
      refine Go.Rel.bind (Go.Rel.bind (h.atVec 0) (fun s t hst =>
        SRel.mul (B1 := C) (B2 := B) ⟨𝒢.one _, fun q hq hb => hf.able q ?_ ?_⟩ hxy hst))
        (fun x y hxy => ih _ _ _ _ hCB hf hxy)
      · exact 𝒢.le (Nat.le_add_right _ _) hq
      · exact hb.trans (le_mul_of_one hCB (one_le_pow₀ hB))
  refine Go.Rel.bind h.check (fun _ _ _ => ?_)
  refine Go.rel_ite Iff.rfl (fun _ => Go.rel_throw _) (fun _ => Go.Rel.bind h.len ?_)
  rintro m _ rfl
  refine Go.rel_ite Iff.rfl (fun _ => Go.rel_throw _) (fun _ => ?_)
  have := key (List.range n.toNat) 0 1 (.k GoNum.one) (.k GoNum.one) zero_le_one
    (by rw [List.length_range]; simpa using hf) ⟨⟨F.one, 𝒢.one 0⟩, by simp⟩
  rw [List.length_range] at this
  simpa using this

/-- The number of rows. -/
def Mat.rowCount : Mat K → ℕ
  | .k l => l.length
  | .v l => l.length
  | .m l => l.length
  | .p l => l.length

theorem MatRel.dims_rows {a : Mat R} {b : Mat K} (h : MatRel F G B a b) :
    Go.Rel (fun d d' => d = d' ∧ d'.1 = b.rowCount) a.dims b.dims := by
  have key : ∀ {α β : Type} {A : α → β → Prop} {l : List (List α)} {l' : List (List β)},
      List.Forall₂ (List.Forall₂ A) l l' →
      Go.Rel (fun d d' => d = d' ∧ d'.1 = l'.length) (rowDims l) (rowDims l') := by
    intro α β A l l' h
    cases h with
    | nil => exact Go.rel_throw _
    | cons hx h => exact Go.rel_pure ⟨by rw [hx.length_eq, h.length_eq], rfl⟩
  refine Go.Rel.bind h.check (fun _ _ _ => ?_)
  match a, b, h with
  | .k _, .k _, h => exact key h
  | .v _, .v _, h => exact key h
  | .m _, .m _, h => exact key h
  | .p _, .p _, h => exact key h

theorem matMulTemplate_rel' (hB1 : 0 ≤ B1) (hB2 : 0 ≤ B2) (hN : 1 ≤ N)
    (hf : Fit F (𝒢.g (i + j)) (N * (B1 * B2))) {a c : Mat R} {b d : Mat K}
    (h : MatRel F (𝒢.g i) B1 a b) (h' : MatRel F (𝒢.g j) B2 c d) (hr : d.rowCount ≤ N) :
    Go.Rel (ERel F (𝒢.g (i + j)) (N * (B1 * B2))) (matMulTemplate a c) (matMulTemplate b d) := by
  refine Go.Rel.bind h.check (fun _ _ _ => Go.Rel.bind h'.check (fun _ _ _ =>
    Go.Rel.bind h.dims ?_))
  rintro da _ rfl
  refine Go.Rel.bind h'.dims_rows ?_
  rintro dc _ ⟨rfl, hdc⟩
  refine Go.rel_ite Iff.rfl (fun _ => Go.rel_throw _) (fun hne => ?_)
  have hda : da.2 ≤ N := by rw [not_not.1 hne, hdc]; exact hr
  exact Go.Rel.bind (Go.rel_mapM_same _ (fun k => Go.rel_mapM_same _ (fun l =>
    mulEntry_rel hB1 hB2 hN hf h h' hda k l))) (fun _ _ h => concretizeM_rel hf.one h)

theorem MatRel.mulMat (hB1 : 0 ≤ B1) (hB2 : 0 ≤ B2) (hN : 1 ≤ N)
    (hf : Fit F (𝒢.g (i + j)) (N * (B1 * B2))) {a c : Mat R} {b d : Mat K}
    (h : MatRel F (𝒢.g i) B1 a b) (h' : MatRel F (𝒢.g j) B2 c d) (hr : d.rowCount ≤ N) :
    Go.Rel (ERel F (𝒢.g (i + j)) (N * (B1 * B2))) (a.mul (.m c)) (b.mul (.m d)) := by
  have main := matMulTemplate_rel' hB1 hB2 hN hf h h' hr
  have main2 := Go.Rel.bind main (fun x y h => ERel.asSimplified hf h)
  have hE : ERel F (𝒢.g j) B2 (.m c) (.m d) := h'
  match a, b, h with
  | .k l, .k l', h =>
    refine Go.Rel.bind hE.check (fun _ _ _ => Go.Rel.bind (rowDims_rel h) ?_)
    rintro da _ rfl
    refine Go.Rel.bind hE.dims ?_
    rintro dc _ rfl
    exact Go.Rel.bind (Go.rel_unit _) (fun _ _ _ => main2)
  | .v l, .v l', h =>
    refine Go.Rel.bind (MatRel.check (a := .v l) (b := .v l') h) (fun _ _ _ =>
      Go.Rel.bind hE.check (fun _ _ _ => Go.Rel.bind (rowDims_rel h) ?_))
    rintro da _ rfl
    refine Go.Rel.bind hE.dims ?_
    rintro dc _ rfl
    exact Go.Rel.bind (Go.rel_unit _) (fun _ _ _ => main2)
  | .m l, .m l', h =>
    refine Go.Rel.bind (MatRel.check (a := .m l) (b := .m l') h) (fun _ _ _ =>
      Go.Rel.bind hE.check (fun _ _ _ => Go.Rel.bind (rowDims_rel h) ?_))
    rintro da _ rfl
    refine Go.Rel.bind hE.dims ?_
    rintro dc _ rfl
    exact Go.Rel.bind (Go.rel_unit _) (fun _ _ _ => main)
  | .p l, .p l', h =>
    refine Go.Rel.bind (MatRel.check (a := .p l) (b := .p l') h) (fun _ _ _ =>
      Go.Rel.bind hE.check (fun _ _ _ => Go.Rel.bind (rowDims_rel h) ?_))
    rintro da _ rfl
    refine Go.Rel.bind hE.dims ?_
    rintro dc _ rfl
    exact Go.Rel.bind (Go.rel_unit _) (fun _ _ _ => main)

theorem identityRows_rel (n : ℕ) :
    MatRel F (𝒢.g 0) 1 (.k (identityRows n)) (.k (identityRows n)) := by
  refine forall₂_map (A := fun (a b : ℕ) => a = b) (List.forall₂_same.2 (fun _ _ => rfl)) ?_
  rintro a _ rfl
  refine forall₂_map (A := fun (a b : ℕ) => a = b) (List.forall₂_same.2 (fun _ _ => rfl)) ?_
  rintro b _ rfl
  split
  · exact ⟨⟨F.one, 𝒢.one 0⟩, by rw [gn_one, abs_one]⟩
  · exact ⟨crel_zero, by rw [gn_zero, abs_zero]; exact zero_le_one⟩

theorem MatRel.power {n : Int} (hB : 1 ≤ B) (hN : 1 ≤ N)
    (hf : Fit F (𝒢.g (n.toNat * i)) ((N * B) ^ n.toNat))
    {a : Mat R} {b : Mat K} (h : MatRel F (𝒢.g i) B a b) (hr : b.rowCount ≤ N) :
    Go.Rel (MatRel F (𝒢.g (n.toNat * i)) ((N * B) ^ n.toNat)) (a.power n) (b.power n) := by
  have hN1 : (1 : K) ≤ N := by exact_mod_cast hN
  have hNB : (1 : K) ≤ N * B := hN1.trans (le_mul_of_one (zero_le_one.trans hN1) hB)
  have key : ∀ (l : List ℕ) (j : ℕ) (C : K) (x : Mat R) (y : Mat K), 0 ≤ C →
      Fit F (𝒢.g (j + l.length * i)) (C * (N * B) ^ l.length) → MatRel F (𝒢.g j) C x y →
      Go.Rel (MatRel F (𝒢.g (j + l.length * i)) (C * (N * B) ^ l.length))
        (l.foldlM (fun (acc : Mat R) _ => do
          match ← acc.mul (.m a) with
          | .m b => pure b
          | _ => throw .typeAssert) x)
        (l.foldlM (fun (acc : Mat K) _ => do
          match ← acc.mul (.m b) with
          | .m b => pure b
          | _ => throw .typeAssert) y) := by
    intro l
    induction l with
    | nil =>
      intro j C x y _ _ hxy
      have : Go.Rel (MatRel F (𝒢.g j) C) (pure x) (pure y) := Go.rel_pure hxy
      simpa using this
    | cons k l ih =>
      intro j C x y hC hf hxy
      have e1 : j + (k :: l).length * i = (j + i) + l.length * i := by
        rw [List.length_cons]; ring
      have e2 : C * (N * B) ^ (k :: l).length = N * (C * B) * (N * B) ^ l.length := by
        rw [List.length_cons]; ring
      rw [e1, e2] at hf ⊢
      have hCB : 0 ≤ N * (C * B) :=
        mul_nonneg (zero_le_one.trans hN1) (mul_nonneg hC (zero_le_one.trans hB))
      rw [List.foldlM_cons, List.foldlM_cons]
      refine Go.Rel.bind (A := MatRel F (𝒢.g (j + i)) (N * (C * B)))
        (Go.Rel.bind (MatRel.mulMat hC (zero_le_one.trans hB) hN
          ⟨𝒢.one _, fun q hq hb => hf.able q ?_ ?_⟩ hxy h hr) (fun s t hst => ?_))
        (fun x y hxy => ih _ _ _ _ hCB hf hxy)
      · exact 𝒢.le (Nat.le_add_right _ _) hq
      · exact hb.trans (le_mul_of_one hCB (one_le_pow₀ hNB))
      · match s, t, hst with
        | .s _, .s _, _ => exact Go.rel_throw _
        | .v _, .v _, _ => exact Go.rel_throw _
        | .m _, .m _, h => exact Go.rel_pure h
  unfold Mat.power
  refine Go.Rel.bind h.check (fun _ _ _ => Go.Rel.bind h.dims ?_)
  rintro m _ rfl
  refine Go.rel_ite Iff.rfl (fun _ => Go.rel_throw _) (fun _ => ?_)
  refine Go.rel_ite Iff.rfl (fun _ => Go.rel_throw _) (fun _ => ?_)
  refine Go.rel_ite Iff.rfl (fun _ => Go.rel_throw _) (fun _ => ?_)
  have fit1 : Fit F (𝒢.g 0) (1 + 0) := by
    rw [add_zero]
    exact ⟨𝒢.one 0, fun q hq hb => hf.able q (𝒢.le (Nat.zero_le _) hq) (hb.trans (one_le_pow₀ hNB))⟩
  have fin : ∀ x y, MatRel F (𝒢.g 0) (1 + 0) x y →
      Go.Rel (MatRel F (𝒢.g (n.toNat * i)) ((N * B) ^ n.toNat))
        ((List.range n.toNat).foldlM (fun (acc : Mat R) _ => do
          match ← acc.mul (.m a) with
          | .m b => pure b
          | _ => throw .typeAssert) x)
        ((List.range n.toNat).foldlM (fun (acc : Mat K) _ => do
          match ← acc.mul (.m b) with
          | .m b => pure b
          | _ => throw .typeAssert) y) := by
    intro x y hxy
    rw [add_zero] at hxy
    have := key (List.range n.toNat) 0 1 x y zero_le_one
      (by rw [List.length_range]; simpa using hf) hxy
    rw [List.length_range] at this
    simpa using this
  refine Go.Rel.bind (kmPlus_rel (B2 := 0) fit1 (identityRows_rel m.1) zero_le_one
    (c := .s (.k GoNum.zero)) (d := .s (.k GoNum.zero)) ⟨crel_zero, by rw [gn_zero, abs_zero]⟩)
    (fun s t hst => ?_)
  match s, t, hst with
  | .s _, .s _, _ => exact Go.rel_throw _
  | .v _, .v _, _ => exact Go.rel_throw _
  | .m _, .m _, h => exact fin _ _ h

/-! ## Transpose, HStack, VStack -/

theorem VecRel.transpose {a : Vec R} {b : Vec K} (h : VecRel F G B a b) :
    Go.Rel (MatRel F G B) a.transpose b.transpose := by
  match a, b, h with
  | .k _, .k _, h =>
    exact Go.rel_ite (forall₂_nil_iff h) (fun _ => Go.rel_throw _)
      (fun _ => Go.rel_pure (a := Mat.k _) (b := Mat.k _) (List.Forall₂.cons h List.Forall₂.nil))
  | .v l, .v l', h =>
    exact Go.Rel.bind (VecRel.check (a := .v l) (b := .v l') h) (fun _ _ _ =>
      Go.rel_pure (a := Mat.v _) (b := Mat.v _) (List.Forall₂.cons h List.Forall₂.nil))
  | .m l, .m l', h =>
    exact Go.Rel.bind (VecRel.check (a := .m l) (b := .m l') h) (fun _ _ _ =>
      Go.rel_pure (a := Mat.m _) (b := Mat.m _) (List.Forall₂.cons h List.Forall₂.nil))
  | .p l, .p l', h =>
    exact Go.Rel.bind (VecRel.check (a := .p l) (b := .p l') h) (fun _ _ _ =>
      Go.rel_pure (a := Mat.p _) (b := Mat.p _) (List.Forall₂.cons h List.Forall₂.nil))

theorem MatRel.transpose {a : Mat R} {b : Mat K} (h : MatRel F G B a b) :
    Go.Rel (MatRel F G B) a.transpose b.transpose := by
  match a, b, h with
  | .k l, .k l', h =>
    refine Go.Rel.bind (kToDense_rel h) (fun _ _ h1 => Go.Rel.bind (rowDims_rel h) ?_)
    rintro d _ rfl
    exact Go.Rel.bind (transposeRows_rel h1 _) (fun _ _ h => Go.rel_pure (a := Mat.k _) (b := Mat.k _) h)
  | .v l, .v l', h =>
    refine Go.Rel.bind (MatRel.dims (a := .v l) (b := .v l') h) ?_
    rintro d _ rfl
    exact Go.Rel.bind (transposeRows_rel h _) (fun _ _ h => Go.rel_pure (a := Mat.v _) (b := Mat.v _) h)
  | .m l, .m l', h =>
    refine Go.Rel.bind (MatRel.dims (a := .m l) (b := .m l') h) ?_
    rintro d _ rfl
    exact Go.Rel.bind (transposeRows_rel h _) (fun _ _ h => Go.rel_pure (a := Mat.m _) (b := Mat.m _) h)
  | .p l, .p l', h =>
    refine Go.Rel.bind (MatRel.dims (a := .p l) (b := .p l') h) ?_
    rintro d _ rfl
    exact Go.Rel.bind (transposeRows_rel h _) (fun _ _ h => Go.rel_pure (a := Mat.p _) (b := Mat.p _) h)

theorem ERel.transpose {a : Expr R} {b : Expr K} (h : ERel F G B a b) :
    Go.Rel (ERel F G B) a.transpose b.transpose := by
  match a, b, h with
  | .s (.k _), .s (.k _), h => exact Go.rel_pure (a := Expr.s (.k _)) (b := Expr.s (.k _)) h
  | .s (.var _), .s (.var _), h => exact Go.rel_pure (a := Expr.s (.var _)) (b := Expr.s (.var _)) h
  | .s (.mono _), .s (.mono _), h =>
    exact Go.Rel.bind h.1.check (fun _ _ _ =>
      Go.rel_pure (a := Expr.s (.mono _)) (b := Expr.s (.mono _)) h)
  | .s (.poly _), .s (.poly _), h =>
    exact Go.Rel.bind (lcheck_rel h.1) (fun _ _ _ =>
      Go.rel_pure (a := Expr.s (.poly _)) (b := Expr.s (.poly _)) h)
  | .v _, .v _, h =>
    exact Go.Rel.bind (VecRel.transpose h) (fun _ _ h => Go.rel_pure (a := Expr.m _) (b := Expr.m _) h)
  | .m _, .m _, h =>
    exact Go.Rel.bind (MatRel.transpose h) (fun _ _ h => Go.rel_pure (a := Expr.m _) (b := Expr.m _) h)

theorem ERel.row {a : Expr R} {b : Expr K} (h : ERel F G B a b) (k c : ℕ) :
    Go.Rel (List.Forall₂ (SRel F G B)) (a.row k c) (b.row k c) :=
  Go.rel_mapM_same _ (fun _ => h.at _ _)

theorem dims_list_rel {l : List (Expr R)} {l' : List (Expr K)} (h : List.Forall₂ (ERel F G B) l l') :
    Go.Rel (· = ·) (l.mapM Expr.dims) (l'.mapM Expr.dims) :=
  (Go.rel_mapM h (fun _ _ h => ERel.dims h)).mono (fun _ _ h => by
    rwa [List.forall₂_eq_eq_eq] at h)

theorem forall₂_zip_same {α β γ : Type} {A : α → β → Prop} {l : List α} {l' : List β}
    (h : List.Forall₂ A l l') (r : List γ) :
    List.Forall₂ (fun a b => A a.1 b.1 ∧ a.2 = b.2) (l.zip r) (l'.zip r) := by
  induction h generalizing r with
  | nil => exact List.Forall₂.nil
  | cons hx _ ih =>
    cases r with
    | nil => exact List.Forall₂.nil
    | cons c r => exact List.Forall₂.cons ⟨hx, rfl⟩ (ih r)

/-- `HStack` on floats does what it does on exact numbers. -/
theorem hstack_rel (hone : 1 ∈ G) {l : List (Expr R)} {l' : List (Expr K)}
    (h : List.Forall₂ (ERel F G B) l l') : Go.Rel (ERel F G B) (hstack l) (hstack l') := by
  refine Go.rel_ite (forall₂_nil_iff h) (fun _ => Go.rel_throw _) (fun _ => ?_)
  refine Go.Rel.bind (dims_list_rel h) ?_
  rintro ds _ rfl
  refine Go.Rel.bind (Go.rel_unit _) (fun _ _ _ => ?_)
  cases ds with
  | nil => exact Go.rel_throw _
  | cons d ds =>
    refine Go.Rel.bind (A := (· = ·)) (Go.rel_pure rfl) ?_
    rintro r _ rfl
    refine Go.Rel.bind (Go.rel_mapM_same _ (fun k => Go.Rel.bind
      (Go.rel_mapM (forall₂_zip_same h (d :: ds)) (B := List.Forall₂ (SRel F G B)) ?_)
      (fun _ _ h => Go.rel_pure (forall₂_flatten h)))) (fun _ _ h => concretizeM_rel hone h)
    rintro ⟨x, m⟩ ⟨y, _⟩ ⟨hxy, rfl⟩
    exact hxy.row _ _

/-- `VStack` on floats does what it does on exact numbers. -/
theorem vstack_rel (hone : 1 ∈ G) {l : List (Expr R)} {l' : List (Expr K)}
    (h : List.Forall₂ (ERel F G B) l l') : Go.Rel (ERel F G B) (vstack l) (vstack l') := by
  refine Go.rel_ite (forall₂_nil_iff h) (fun _ => Go.rel_throw _) (fun _ => ?_)
  refine Go.Rel.bind (dims_list_rel h) ?_
  rintro ds _ rfl
  refine Go.Rel.bind (Go.rel_unit _) (fun _ _ _ => ?_)
  refine Go.Rel.bind (Go.rel_mapM (forall₂_zip_same h ds)
    (B := List.Forall₂ (List.Forall₂ (SRel F G B))) ?_)
    (fun _ _ h => concretizeM_rel hone (forall₂_flatten h))
  rintro ⟨x, m⟩ ⟨y, _⟩ ⟨hxy, rfl⟩
  exact Go.rel_mapM_same _ (fun k => hxy.row _ _)

/-! ## Variables, Constant, Degree, LinearCoeff -/

theorem forall₂_flatMap {α β γ δ : Type} {A : α → β → Prop} {P : γ → δ → Prop} {l : List α}
    {l' : List β} (h : List.Forall₂ A l l') {f : α → List γ} {g : β → List δ}
    (hf : ∀ a b, A a b → List.Forall₂ P (f a) (g b)) :
    List.Forall₂ P (l.flatMap f) (l'.flatMap g) := by
  induction h with
  | nil => exact List.Forall₂.nil
  | cons hx _ ih =>
    rw [List.flatMap_cons, List.flatMap_cons]
    exact List.rel_append (hf _ _ hx) ih

theorem SRel.variables {a : Scalar R} {b : Scalar K} (h : SRel F G B a b) :
    List.Forall₂ (VRel F) a.variables b.variables := by
  match a, b, h with
  | .k _, .k _, h => exact List.Forall₂.nil
  | .var _, .var _, h => exact List.Forall₂.cons h.1 List.Forall₂.nil
  | .mono _, .mono _, h => exact h.1.2.2
  | .poly _, .poly _, h => exact variables_rel h.1

theorem ERel.variables {a : Expr R} {b : Expr K} (h : ERel F G B a b) :
    Go.Rel (List.Forall₂ (VRel F)) a.variables b.variables := by
  match a, b, h with
  | .s _, .s _, h => exact Go.rel_pure (SRel.variables h)
  | .v (.k _), .v (.k _), h => exact Go.rel_pure List.Forall₂.nil
  | .v (.v _), .v (.v _), h => exact Go.rel_pure (uniqueVars_rel (h.imp (fun _ _ h => h.1)))
  | .v (.m l), .v (.m l'), h =>
    exact Go.Rel.bind (VecRel.check (a := .m l) (b := .m l') h) (fun _ _ _ => Go.rel_pure
      (uniqueVars_rel (forall₂_flatMap h (fun _ _ h => SRel.variables h))))
  | .v (.p l), .v (.p l'), h =>
    exact Go.rel_pure (uniqueVars_rel (forall₂_flatMap h (fun _ _ h => SRel.variables h)))
  | .m (.k _), .m (.k _), h => exact Go.rel_pure List.Forall₂.nil
  | .m (.v l), .m (.v l'), h =>
    exact Go.Rel.bind (MatRel.check (a := .v l) (b := .v l') h) (fun _ _ _ => Go.rel_pure
      (uniqueVars_rel ((forall₂_flatten h).imp (fun _ _ h => h.1))))
  | .m (.m l), .m (.m l'), h =>
    exact Go.Rel.bind (MatRel.check (a := .m l) (b := .m l') h) (fun _ _ _ => Go.rel_pure
      (uniqueVars_rel (forall₂_flatMap (forall₂_flatten h) (fun _ _ h => SRel.variables h))))
  | .m (.p l), .m (.p l'), h =>
    exact Go.Rel.bind (MatRel.check (a := .p l) (b := .p l') h) (fun _ _ _ => Go.rel_pure
      (uniqueVars_rel (forall₂_flatMap (forall₂_flatten h) (fun _ _ h => SRel.variables h))))

theorem newVecDense_rel {l : List R} {l' : List K} {A : R → K → Prop} (h : List.Forall₂ A l l') :
    Go.Rel (List.Forall₂ A) (newVecDense l) (newVecDense l') :=
  Go.rel_ite (forall₂_nil_iff h) (fun _ => Go.rel_throw _) (fun _ => Go.rel_pure h)

theorem srel_zero (hB : 0 ≤ B) : SRel F G B (.k GoNum.zero) (.k GoNum.zero) :=
  ⟨crel_zero, by rw [gn_zero, abs_zero]; exact hB⟩

theorem newVecDense_rel' {l : List R} {l' : List K}
    (h : List.Forall₂ (fun x y => SRel F G B (.k x) (.k y)) l l') :
    Go.Rel (List.Forall₂ (fun x y => SRel F G B (.k x) (.k y))) (newVecDense l) (newVecDense l') :=
  newVecDense_rel h

/-- `Constant` of a vector on floats does what it does on exact numbers. -/
theorem VecRel.constant {a : Vec R} {b : Vec K} (h : VecRel F G B a b) :
    Go.Rel (List.Forall₂ (fun x y => SRel F G B (.k x) (.k y))) a.constant b.constant := by
  match a, b, h with
  | .k _, .k _, h => exact newVecDense_rel h
  | .v _, .v _, h =>
    exact newVecDense_rel (forall₂_map h (fun _ _ h => srel_zero (zero_le_one.trans h.2)))
  | .m l, .m l', h =>
    exact Go.Rel.bind (VecRel.check (a := .m l) (b := .m l') h) (fun _ _ _ =>
      Go.rel_pure (forall₂_map h (fun _ _ h => SRel.constant h)))
  | .p l, .p l', h =>
    exact Go.Rel.bind (VecRel.check (a := .p l) (b := .p l') h) (fun _ _ _ =>
      Go.rel_mapM h (fun _ _ h => SRel.constant h))

/-- `Constant` of a matrix on floats does what it does on exact numbers. -/
theorem MatRel.constant {a : Mat R} {b : Mat K} (h : MatRel F G B a b) :
    Go.Rel (List.Forall₂ (List.Forall₂ (fun x y => SRel F G B (.k x) (.k y)))) a.constant b.constant := by
  match a, b, h with
  | .k _, .k _, h => exact kToDense_rel h
  | .v l, .v l', h =>
    refine Go.Rel.bind (MatRel.dims (a := .v l) (b := .v l') h) ?_
    rintro d _ rfl
    exact Go.rel_ite Iff.rfl (fun _ => Go.rel_throw _) (fun _ =>
      Go.rel_pure (forall₂_map₂ h (fun _ _ h => srel_zero (zero_le_one.trans h.2))))
  | .m l, .m l', h =>
    refine Go.Rel.bind (MatRel.dims (a := .m l) (b := .m l') h) ?_
    rintro d _ rfl
    exact Go.rel_ite Iff.rfl (fun _ => Go.rel_throw _) (fun _ =>
      Go.rel_pure (forall₂_map₂ h (fun _ _ h => SRel.constant h)))
  | .p l, .p l', h =>
    refine Go.Rel.bind (MatRel.dims (a := .p l) (b := .p l') h) ?_
    rintro d _ rfl
    exact Go.rel_ite Iff.rfl (fun _ => Go.rel_throw _) (fun _ =>
      Go.rel_mapM₂ h (fun _ _ h => SRel.constant h))

theorem maxDegreeLoop_rel {α β : Type} {A : α → β → Prop} {f : α → Go Int} {g : β → Go Int}
    (hfg : ∀ a b, A a b → Go.Rel (· = ·) (f a) (g b)) {l : List α} {l' : List β}
    (h : List.Forall₂ A l l') : Go.Rel (· = ·) (maxDegreeLoop f l) (maxDegreeLoop g l') := by
  refine Go.rel_foldlM (A := A) (fun _ _ (c d : Int) => c = d) ?_ h 0 0 rfl
  rintro a b _ _ c _ hab rfl
  refine Go.Rel.bind (hfg a b hab) ?_
  rintro x _ rfl
  exact Go.rel_pure rfl

/-- `Degree` on floats does what it does on exact numbers. -/
theorem ERel.degree {a : Expr R} {b : Expr K} (h : ERel F G B a b) :
    Go.Rel (· = ·) a.degree b.degree := by
  match a, b, h with
  | .s _, .s _, h => exact SRel.degree h
  | .v (.k _), .v (.k _), h => exact rfl
  | .v (.v _), .v (.v _), h => exact rfl
  | .v (.m l), .v (.m l'), h =>
    exact Go.Rel.bind (VecRel.check (a := .m l) (b := .m l') h) (fun _ _ _ =>
      maxDegreeLoop_rel (fun _ _ h => SRel.degree h) h)
  | .v (.p l), .v (.p l'), h =>
    exact Go.Rel.bind (VecRel.check (a := .p l) (b := .p l') h) (fun _ _ _ =>
      maxDegreeLoop_rel (fun _ _ h => SRel.degree h) h)
  | .m (.k _), .m (.k _), h => exact rfl
  | .m (.v l), .m (.v l'), h => exact rfl
  | .m (.m l), .m (.m l'), h =>
    exact Go.Rel.bind (MatRel.check (a := .m l) (b := .m l') h) (fun _ _ _ =>
      maxDegreeLoop_rel (fun _ _ h => SRel.degree h) (forall₂_flatten h))
  | .m (.p l), .m (.p l'), h =>
    exact Go.Rel.bind (MatRel.check (a := .p l) (b := .p l') h) (fun _ _ _ =>
      maxDegreeLoop_rel (fun _ _ h => SRel.degree h) (forall₂_flatten h))

/-- `LinearCoeff` of a vector on floats does what it does on exact numbers. -/
theorem VecRel.linearCoeff (hone : 1 ∈ G) {a : Vec R} {b : Vec K} (h : VecRel F G B a b)
    {wrt : List (List (Var R))} {wrt' : List (List (Var K))}
    (hw : List.Forall₂ (List.Forall₂ (VRel F)) wrt wrt') :
    Go.Rel (List.Forall₂ (List.Forall₂ (fun x y => SRel F G B (.k x) (.k y)))) (a.linearCoeff wrt) (b.linearCoeff wrt') := by
  have fin : ∀ ws ws', List.Forall₂ (VRel F) ws ws' →
      Go.Rel (List.Forall₂ (List.Forall₂ (fun x y => SRel F G B (.k x) (.k y))))
        (do
          if ws.isEmpty then throw .linCoeffConst
          let n ← a.len
          if n = 0 then throw .empty
          (List.range n).mapM (fun (i : Nat) => do
            let x ← a.atVec i
            x.linearCoeff [ws]))
        (do
          if ws'.isEmpty then throw .linCoeffConst
          let n ← b.len
          if n = 0 then throw .empty
          (List.range n).mapM (fun (i : Nat) => do
            let x ← b.atVec i
            x.linearCoeff [ws'])) := by
    intro ws ws' hws
    refine Go.rel_ite (isEmpty_rel hws) (fun _ => Go.rel_throw _) (fun _ => Go.Rel.bind h.len ?_)
    rintro n _ rfl
    refine Go.rel_ite Iff.rfl (fun _ => Go.rel_throw _) (fun _ => ?_)
    exact Go.rel_mapM_same _ (fun k => Go.Rel.bind (h.atVec k) (fun _ _ hx =>
      SRel.linearCoeff hone hx (List.Forall₂.cons hws List.Forall₂.nil)))
  unfold Vec.linearCoeff
  refine Go.Rel.bind h.check (fun _ _ _ => ?_)
  cases hw with
  | nil => exact Go.Rel.bind (ERel.variables (a := .v a) (b := .v b) h) fin
  | cons hx hw =>
    cases hw with
    | nil => exact fin _ _ hx
    | cons _ _ => exact Go.rel_throw _

/-! ## DerivativeWrt -/

theorem MRel.afterDerivative {m : Mono R} {n : Mono K} (h : MRel F G m n) {v : Var R} {w : Var K}
    (hv : VRel F v w) : MRel F G (m.afterDerivative v) (n.afterDerivative w) := by
  unfold Mono.afterDerivative
  rw [findVar_rel hv.1 h.2.2, h.2.1]
  cases findVar w n.vars with
  | none => exact h
  | some k =>
    simp only
    split
    · exact h
    · exact ⟨h.1, rfl, h.2.2⟩

theorem Mono.afterDerivative_coeff (n : Mono K) (w : Var K) :
    (n.afterDerivative w).coeff = n.coeff := by
  unfold Mono.afterDerivative
  split
  · rfl
  · split <;> rfl

omit [IsStrictOrderedRing K] in
theorem Mono.afterDerivative_exps {n : Mono K} {w : Var K} {Q : Int → Prop}
    (h : ∀ e ∈ n.exps, Q e ∧ Q (e - 1)) : ∀ e ∈ (n.afterDerivative w).exps, Q e := by
  unfold Mono.afterDerivative
  split
  · exact fun e he => (h e he).1
  · split
    · exact fun e he => (h e he).1
    · intro e he
      obtain ⟨k, hk, rfl⟩ := List.mem_iff_getElem.1 he
      rw [List.getElem_modify]
      split
      · exact (h _ (List.getElem_mem _)).2
      · exact (h _ (List.getElem_mem _)).1

theorem Poly.derivPoly_rel {E : K} (hE1 : 1 ≤ E) (hfE : Fit F (𝒢.g 0) E)
    (hf : Fit F (𝒢.g i) (B * E)) {a : Poly R} {b : Poly K}
    (h : SRel F (𝒢.g i) B (.poly a) (.poly b)) (hE : ∀ n ∈ b.monos, ∀ e ∈ n.exps, |(e : K)| ≤ E)
    {v : Var R} {w : Var K} (hv : VRel F v w) :
    Go.Rel (fun p q => SRel F (𝒢.g i) (B * E) (.poly p) (.poly q)) (a.derivPoly v) (b.derivPoly w) := by
  refine Go.Rel.bind (SRel.derivative (b := .poly b) hE1 hfE hf h hE hv) (fun s t hst => ?_)
  match s, t, hst with
  | .k _, .k _, _ => exact Go.rel_throw _
  | .var _, .var _, _ => exact Go.rel_throw _
  | .mono _, .mono _, _ => exact Go.rel_throw _
  | .poly _, .poly _, h => exact Go.rel_pure h

/-- Differentiating a vector on floats does what it does on exact numbers. -/
theorem VecRel.derivative {E : K} (hB : 0 ≤ B) (hE1 : 1 ≤ E) (hfE : Fit F (𝒢.g 0) E)
    (hf : Fit F (𝒢.g i) (B * E)) {a : Vec R} {b : Vec K} (h : VecRel F (𝒢.g i) B a b)
    (hE : ∀ s ∈ b.entries, ∀ n ∈ s.termList, ∀ e ∈ n.exps, |(e : K)| ≤ E ∧ |((e - 1 : Int) : K)| ≤ E)
    {v : Var R} {w : Var K} (hv : VRel F v w) :
    Go.Rel (VecRel F (𝒢.g i) (B * E)) (a.derivative v) (b.derivative w) := by
  have hBE : B ≤ B * E := le_mul_of_one hB hE1
  have hz : SRel F (𝒢.g i) (B * E) (.k GoNum.zero) (.k GoNum.zero) := srel_zero (hB.trans hBE)
  match a, b, h with
  | .k _, .k _, h =>
    exact Go.Rel.bind (newVecDense_rel' (forall₂_map h (fun _ _ _ => hz)))
      (fun _ _ h => Go.rel_pure (a := Vec.k _) (b := Vec.k _) h)
  | .v l, .v l', h =>
    refine Go.Rel.bind (VecRel.check (a := .v l) (b := .v l') h) (fun _ _ _ =>
      Go.Rel.bind hv.check (fun _ _ _ => Go.Rel.bind (newVecDense_rel' (forall₂_map h ?_))
        (fun _ _ h => Go.rel_pure (a := Vec.k _) (b := Vec.k _) h)))
    intro x y hxy
    rw [hxy.1.1, hv.1]
    split
    · exact ⟨⟨F.one, 𝒢.one i⟩, by rw [gn_one, abs_one]; exact hxy.2.trans hBE⟩
    · exact hz
  | .m l, .m l', h =>
    have hE' : ∀ n ∈ l', ∀ e ∈ n.exps, |(e : K)| ≤ E ∧ |((e - 1 : Int) : K)| ≤ E :=
      fun n hn => hE (.mono n) (List.mem_map_of_mem hn) n List.mem_cons_self
    refine Go.Rel.bind (VecRel.check (a := .m l) (b := .m l') h) (fun _ _ _ => Go.Rel.bind
      (Go.rel_mapM (forall₂_and h hE') (B := fun (d : Bool × Scalar R) (d' : Bool × Scalar K) =>
        d.1 = d'.1 ∧ SRel F (𝒢.g i) (B * E) d.2 d'.2) ?_) (fun ds ds' hds => ?_))
    · rintro m n ⟨hmn, he⟩
      have hle : |n.coeff| * E ≤ B * E :=
        mul_le_mul_of_nonneg_right hmn.2 (zero_le_one.trans hE1)
      refine Go.Rel.bind (hmn.1.derivative hE1 hfE (fun e h => (he e h).1) (hf.mono hle) hv)
        (fun d1 d1' h1 => ?_)
      have hm2 := hmn.1.afterDerivative hv
      have hle2 : |(n.afterDerivative w).coeff| * E ≤ B * E := by
        rw [Mono.afterDerivative_coeff]; exact hle
      refine Go.Rel.bind (hm2.derivative hE1 hfE
        (Mono.afterDerivative_exps (Q := fun e => |(e : K)| ≤ E) he) (hf.mono hle2) hv)
        (fun d2 d2' h2 => Go.rel_pure ⟨h1.kind.2.2.1, h2.mono hle2⟩)
    · refine Go.rel_ite ?_ (fun _ => ?_) (fun _ => ?_)
      · rw [any_rel hds (f := (·.1)) (g := (·.1)) (fun _ _ h => h.1)]
      · refine Go.Rel.bind (Go.rel_mapM hds
          (B := fun p q => SRel F (𝒢.g i) (B * E) (.mono p) (.mono q)) ?_)
          (fun _ _ h => Go.rel_pure (a := Vec.m _) (b := Vec.m _) h)
        rintro ⟨_, s⟩ ⟨_, t⟩ ⟨-, hst⟩
        match s, t, hst with
        | .k _, .k _, h => exact Go.rel_pure ⟨⟨h.1, rfl, List.Forall₂.nil⟩, h.2⟩
        | .var _, .var _, _ => exact Go.rel_throw _
        | .mono _, .mono _, h => exact Go.rel_pure h
        | .poly _, .poly _, h => exact Go.rel_throw _
      · refine Go.Rel.bind (Go.rel_mapM hds
          (B := fun p q => SRel F (𝒢.g i) (B * E) (.k p) (.k q)) ?_)
          (fun _ _ h => Go.rel_pure (a := Vec.k _) (b := Vec.k _) h)
        rintro ⟨_, s⟩ ⟨_, t⟩ ⟨-, hst⟩
        match s, t, hst with
        | .k _, .k _, h => exact Go.rel_pure h
        | .var _, .var _, _ => exact Go.rel_throw _
        | .mono _, .mono _, h => exact Go.rel_throw _
        | .poly _, .poly _, h => exact Go.rel_throw _
  | .p l, .p l', h =>
    have hE' : ∀ p ∈ l', ∀ n ∈ p.monos, ∀ e ∈ n.exps, |(e : K)| ≤ E :=
      fun p hp n hn e he => (hE (.poly p) (List.mem_map_of_mem hp) n hn e he).1
    exact Go.Rel.bind (Go.rel_mapM (forall₂_and h hE') (fun _ _ h =>
        Poly.derivPoly_rel hE1 hfE hf h.1 h.2 hv))
      (fun _ _ h => Go.rel_pure (a := Vec.p _) (b := Vec.p _) h)

theorem forall₂_and₂ {α β : Type} {A : α → β → Prop} {Q : β → Prop} {l : List (List α)}
    {l' : List (List β)} (h : List.Forall₂ (List.Forall₂ A) l l') (hQ : ∀ r ∈ l', ∀ b ∈ r, Q b) :
    List.Forall₂ (List.Forall₂ (fun a b => A a b ∧ Q b)) l l' :=
  (forall₂_and h hQ).imp (fun _ _ h => forall₂_and h.1 h.2)

/-- Differentiating a matrix on floats does what it does on exact numbers. -/
theorem MatRel.derivative {E : K} (hB : 0 ≤ B) (hE1 : 1 ≤ E) (hfE : Fit F (𝒢.g 0) E)
    (hf : Fit F (𝒢.g i) (B * E)) {a : Mat R} {b : Mat K} (h : MatRel F (𝒢.g i) B a b)
    (hE : ∀ r ∈ b.entries, ∀ s ∈ r, ∀ n ∈ s.termList, ∀ e ∈ n.exps, |(e : K)| ≤ E)
    {v : Var R} {w : Var K} (hv : VRel F v w) :
    Go.Rel (MatRel F (𝒢.g i) (B * E)) (a.derivative v) (b.derivative w) := by
  have hBE : B ≤ B * E := le_mul_of_one hB hE1
  have hz : SRel F (𝒢.g i) (B * E) (.k GoNum.zero) (.k GoNum.zero) := srel_zero (hB.trans hBE)
  match a, b, h with
  | .k _, .k _, h =>
    refine Go.Rel.bind (rowDims_rel h) ?_
    rintro d _ rfl
    refine Go.rel_ite Iff.rfl (fun _ => Go.rel_throw _) (fun _ =>
      Go.rel_pure (a := Mat.k _) (b := Mat.k _) ?_)
    exact forall₂_replicate (A := List.Forall₂ (fun a b => SRel F (𝒢.g i) (B * E) (.k a) (.k b)))
      (forall₂_replicate (A := fun a b => SRel F (𝒢.g i) (B * E) (.k a) (.k b)) hz _) _
  | .v l, .v l', h =>
    refine Go.Rel.bind (MatRel.dims (a := .v l) (b := .v l') h) ?_
    rintro d _ rfl
    refine Go.rel_ite Iff.rfl (fun _ => Go.rel_throw _) (fun _ =>
      Go.rel_pure (a := Mat.k _) (b := Mat.k _) (forall₂_map₂ h ?_))
    intro x y hxy
    rw [hxy.1.1, hv.1]
    split
    · exact ⟨⟨F.one, 𝒢.one i⟩, by rw [gn_one, abs_one]; exact hxy.2.trans hBE⟩
    · exact hz
  | .m l, .m l', h =>
    have hE' : ∀ r ∈ l', ∀ n ∈ r, ∀ e ∈ n.exps, |(e : K)| ≤ E :=
      fun r hr n hn => hE _ (List.mem_map_of_mem hr) (.mono n) (List.mem_map_of_mem hn) n
        List.mem_cons_self
    refine Go.Rel.bind (MatRel.check (a := .m l) (b := .m l') h) (fun _ _ _ =>
      Go.Rel.bind hv.check (fun _ _ _ => Go.Rel.bind (Go.rel_mapM₂ (forall₂_and₂ h hE') ?_)
        (fun _ _ h => concretizeMat_rel hf.one h)))
    rintro m n ⟨hmn, he⟩
    have hle : |n.coeff| * E ≤ B * E :=
      mul_le_mul_of_nonneg_right hmn.2 (zero_le_one.trans hE1)
    exact (hmn.1.derivative hE1 hfE he (hf.mono hle) hv).mono (fun _ _ h => h.mono hle)
  | .p l, .p l', h =>
    have hE' : ∀ r ∈ l', ∀ p ∈ r, ∀ n ∈ p.monos, ∀ e ∈ n.exps, |(e : K)| ≤ E :=
      fun r hr p hp => hE _ (List.mem_map_of_mem hr) (.poly p) (List.mem_map_of_mem hp)
    exact Go.Rel.bind (MatRel.check (a := .p l) (b := .p l') h) (fun _ _ _ =>
      Go.Rel.bind hv.check (fun _ _ _ => Go.Rel.bind (Go.rel_mapM₂ (forall₂_and₂ h hE') (fun _ _ h =>
        Poly.derivPoly_rel hE1 hfE hf h.1 h.2 hv))
      (fun _ _ h => Go.rel_pure (a := Mat.p _) (b := Mat.p _) h)))

/-- Differentiating on floats does what it does on exact numbers. -/
theorem ERel.derivative {E : K} (hB : 0 ≤ B) (hE1 : 1 ≤ E) (hfE : Fit F (𝒢.g 0) E)
    (hf : Fit F (𝒢.g i) (B * E)) {a : Expr R} {b : Expr K} (h : ERel F (𝒢.g i) B a b)
    (hE : ∀ r ∈ b.grid, ∀ s ∈ r, ∀ n ∈ s.termList, ∀ e ∈ n.exps,
      |(e : K)| ≤ E ∧ |((e - 1 : Int) : K)| ≤ E)
    {v : Var R} {w : Var K} (hv : VRel F v w) :
    Go.Rel (ERel F (𝒢.g i) (B * E)) (a.derivative v) (b.derivative w) := by
  match a, b, h with
  | .s _, .s t, h =>
    exact Go.Rel.bind (SRel.derivative hE1 hfE hf h (fun n hn e he =>
      (hE [t] List.mem_cons_self t List.mem_cons_self n hn e he).1) hv)
      (fun _ _ h => Go.rel_pure (a := Expr.s _) (b := Expr.s _) h)
  | .v _, .v _, h =>
    exact Go.Rel.bind (VecRel.derivative hB hE1 hfE hf h (fun s hs =>
      hE [s] (List.mem_map_of_mem hs) s List.mem_cons_self) hv)
      (fun _ _ h => Go.rel_pure (a := Expr.v _) (b := Expr.v _) h)
  | .m _, .m _, h =>
    exact Go.Rel.bind (MatRel.derivative hB hE1 hfE hf h (fun r hr s hs n hn e he =>
      (hE r hr s hs n hn e he).1) hv)
      (fun _ _ h => Go.rel_pure (a := Expr.m _) (b := Expr.m _) h)

/-! ## Substitute -/

theorem Mat.at_mem {b : Mat K} (hb : ∀ l, b ≠ .k l) {k l : Int} :
    Go.Post (b.at k l) (fun s => ∃ r ∈ b.entries, s ∈ r) := by
  cases b with
  | k l => exact absurd rfl (hb l)
  | v l =>
    refine Go.post_bind' fun _ _ => goGet2_mem.bind fun _ h => Go.post_pure ?_
    obtain ⟨r, hr, h⟩ := h
    exact ⟨_, List.mem_map_of_mem hr, List.mem_map_of_mem h⟩
  | m l =>
    refine Go.post_bind' fun _ _ => goGet2_mem.bind fun _ h => Go.post_pure ?_
    obtain ⟨r, hr, h⟩ := h
    exact ⟨_, List.mem_map_of_mem hr, List.mem_map_of_mem h⟩
  | p l =>
    refine Go.post_bind' fun _ _ => Go.post_bind' fun _ _ => Go.post_bind' fun _ _ =>
      goGet2_mem.bind fun _ h => Go.post_pure ?_
    obtain ⟨r, hr, h⟩ := h
    exact ⟨_, List.mem_map_of_mem hr, List.mem_map_of_mem h⟩

variable {S : K} {D : ℕ}

/-- Substitution in a vector on floats does what it does on exact numbers. -/
theorem VecRel.substitute (hB : 0 ≤ B) (hS : 1 ≤ S) (hfS : Fit F (𝒢.g (D * j)) (S ^ D)) {a : Vec R}
    {b : Vec K} (ha : VecRel F (𝒢.g i) B a b) (hD : ∀ s ∈ b.entries, ∀ n ∈ s.termList, n.size ≤ D)
    (hD1 : 1 ≤ D) (hf : Fit F (𝒢.g (i + D * j)) (B * S ^ D)) {x : Var R} {y : Var K} (hx : VRel F x y)
    {s : Scalar R} {t : Scalar K} (h : SRel F (𝒢.g j) S s t) :
    Go.Rel (VecRel F (𝒢.g (i + D * j)) (B * S ^ D)) (a.substitute x s) (b.substitute y t) := by
  have hBS : B ≤ B * S ^ D := le_mul_of_one hB (one_le_pow₀ hS)
  have hg : 𝒢.g i ≤ 𝒢.g (i + D * j) := 𝒢.le (Nat.le_add_right _ _)
  have gen : Go.Rel (VecRel F (𝒢.g (i + D * j)) (B * S ^ D))
      (do
        a.check
        x.check
        s.check
        let n ← a.len
        concretizeVec (← (List.range n).mapM (fun (i : Nat) => do
          let z ← a.atVec i
          z.substitute x s)))
      (do
        b.check
        y.check
        t.check
        let n ← b.len
        concretizeVec (← (List.range n).mapM (fun (i : Nat) => do
          let z ← b.atVec i
          z.substitute y t))) := by
    refine Go.Rel.bind ha.check (fun _ _ _ => Go.Rel.bind hx.check (fun _ _ _ =>
      Go.Rel.bind h.check (fun _ _ _ => Go.Rel.bind ha.len ?_)))
    rintro n _ rfl
    refine Go.Rel.bind (Go.rel_mapM_same _ (fun k => Go.Rel.bind
      ((ha.atVec k).post Vec.atVec_mem) (fun z z' hz => ?_))) (fun _ _ h => concretizeVec_rel hf.one h)
    exact SRel.substitute hS hfS hz.1 (hD _ hz.2) hD1 hf hx h
  match a, b, ha with
  | .k _, .k _, ha =>
    exact Go.rel_pure (a := Vec.k _) (b := Vec.k _)
      (VecRel.weaken (a := .k _) (b := .k _) hg hBS ha)
  | .v _, .v _, ha => exact gen
  | .m _, .m _, ha => exact gen
  | .p _, .p _, ha => exact gen

/-- Substitution in a matrix on floats does what it does on exact numbers. -/
theorem MatRel.substitute (hB : 0 ≤ B) (hS : 1 ≤ S) (hfS : Fit F (𝒢.g (D * j)) (S ^ D)) {a : Mat R}
    {b : Mat K} (ha : MatRel F (𝒢.g i) B a b)
    (hD : ∀ r ∈ b.entries, ∀ s ∈ r, ∀ n ∈ s.termList, n.size ≤ D)
    (hD1 : 1 ≤ D) (hf : Fit F (𝒢.g (i + D * j)) (B * S ^ D)) {x : Var R} {y : Var K} (hx : VRel F x y)
    {s : Scalar R} {t : Scalar K} (h : SRel F (𝒢.g j) S s t) :
    Go.Rel (MatRel F (𝒢.g (i + D * j)) (B * S ^ D)) (a.substitute x s) (b.substitute y t) := by
  have hBS : B ≤ B * S ^ D := le_mul_of_one hB (one_le_pow₀ hS)
  have hg : 𝒢.g i ≤ 𝒢.g (i + D * j) := 𝒢.le (Nat.le_add_right _ _)
  have gen (hk : ∀ l, b ≠ .k l) : Go.Rel (MatRel F (𝒢.g (i + D * j)) (B * S ^ D))
      (do
        a.check
        x.check
        s.check
        let d ← a.dims
        concretizeMat (← (List.range d.1).mapM (fun (i : Nat) =>
          (List.range d.2).mapM (fun (j : Nat) => do
            let z ← a.at i j
            z.substitute x s))))
      (do
        b.check
        y.check
        t.check
        let d ← b.dims
        concretizeMat (← (List.range d.1).mapM (fun (i : Nat) =>
          (List.range d.2).mapM (fun (j : Nat) => do
            let z ← b.at i j
            z.substitute y t)))) := by
    refine Go.Rel.bind ha.check (fun _ _ _ => Go.Rel.bind hx.check (fun _ _ _ =>
      Go.Rel.bind h.check (fun _ _ _ => Go.Rel.bind ha.dims ?_)))
    rintro n _ rfl
    refine Go.Rel.bind (Go.rel_mapM_same _ (fun k => Go.rel_mapM_same _ (fun l => Go.Rel.bind
      ((ha.at k l).post (Mat.at_mem hk)) (fun z z' hz => ?_))))
      (fun _ _ h => concretizeMat_rel hf.one h)
    obtain ⟨hz, r, hr, hz'⟩ := hz
    exact SRel.substitute hS hfS hz (hD r hr _ hz') hD1 hf hx h
  match a, b, ha with
  | .k _, .k _, ha =>
    exact Go.rel_pure (a := Mat.k _) (b := Mat.k _)
      (MatRel.weaken (a := .k _) (b := .k _) hg hBS ha)
  | .v _, .v _, ha => exact gen (fun _ => by simp)
  | .m _, .m _, ha => exact gen (fun _ => by simp)
  | .p _, .p _, ha => exact gen (fun _ => by simp)

/-- Substitution on floats does what it does on exact numbers. -/
theorem ERel.substitute (hB : 0 ≤ B) (hS : 1 ≤ S) (hfS : Fit F (𝒢.g (D * j)) (S ^ D)) {a : Expr R}
    {b : Expr K} (ha : ERel F (𝒢.g i) B a b)
    (hD : ∀ r ∈ b.grid, ∀ s ∈ r, ∀ n ∈ s.termList, n.size ≤ D)
    (hD1 : 1 ≤ D) (hf : Fit F (𝒢.g (i + D * j)) (B * S ^ D)) {x : Var R} {y : Var K} (hx : VRel F x y)
    {s : Scalar R} {t : Scalar K} (h : SRel F (𝒢.g j) S s t) :
    Go.Rel (ERel F (𝒢.g (i + D * j)) (B * S ^ D)) (a.substitute x s) (b.substitute y t) := by
  match a, b, ha with
  | .s _, .s z, ha =>
    exact Go.Rel.bind (SRel.substitute hS hfS ha (hD [z] List.mem_cons_self z List.mem_cons_self)
      hD1 hf hx h) (fun _ _ h => Go.rel_pure (a := Expr.s _) (b := Expr.s _) h)
  | .v _, .v _, ha =>
    exact Go.Rel.bind (VecRel.substitute hB hS hfS ha (fun s hs =>
      hD [s] (List.mem_map_of_mem hs) s List.mem_cons_self) hD1 hf hx h)
      (fun _ _ h => Go.rel_pure (a := Expr.v _) (b := Expr.v _) h)
  | .m _, .m _, ha =>
    exact Go.Rel.bind (MatRel.substitute hB hS hfS ha hD hD1 hf hx h)
      (fun _ _ h => Go.rel_pure (a := Expr.m _) (b := Expr.m _) h)

end Verif
