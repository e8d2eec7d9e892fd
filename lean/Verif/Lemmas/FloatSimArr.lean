import Verif.Lemmas.FloatSim
import Verif.Model.Constraint

/-!
# Vectors and matrices on floats

The relation of `Lemmas/FloatSim` between a run on floats and the run on exact numbers, for vectors,
matrices and expressions: every entry is related, with the same bound for all.
-/

set_option linter.unusedSectionVars false

namespace Verif

section
variable {α β γ δ : Type} {A : α → β → Prop} {P : γ → δ → Prop}

theorem Go.rel_self (x : Go α) : Go.Rel (· = ·) x x := by cases x <;> rfl

theorem Go.rel_unit (x : Go Unit) : Go.Rel (fun _ _ => True) x x := by
  cases x with
  | ok _ => trivial
  | error _ => rfl

theorem goGet_rel {l : List α} {l' : List β} (h : List.Forall₂ A l l') (i : Int) :
    Go.Rel A (goGet l i) (goGet l' i) := by
  unfold goGet
  refine Go.rel_ite Iff.rfl (fun _ => Go.rel_throw _) (fun _ => ?_)
  obtain ⟨e1, e2⟩ | ⟨a, b, e1, e2, hab⟩ := forall₂_getElem? h i.toNat
  · rw [e1, e2]; exact Go.rel_throw _
  · rw [e1, e2]; exact Go.rel_pure hab

theorem goGet2_rel {l : List (List α)} {l' : List (List β)} (h : List.Forall₂ (List.Forall₂ A) l l')
    (i j : Int) : Go.Rel A (goGet2 l i j) (goGet2 l' i j) :=
  Go.Rel.bind (goGet_rel h i) (fun _ _ h => goGet_rel h j)

theorem forall₂_map {l : List α} {l' : List β} (h : List.Forall₂ A l l') {f : α → γ} {g : β → δ}
    (hf : ∀ a b, A a b → P (f a) (g b)) : List.Forall₂ P (l.map f) (l'.map g) := by
  induction h with
  | nil => exact List.Forall₂.nil
  | cons hx _ ih => exact List.Forall₂.cons (hf _ _ hx) ih

theorem forall₂_map₂ {l : List (List α)} {l' : List (List β)} (h : List.Forall₂ (List.Forall₂ A) l l')
    {f : α → γ} {g : β → δ} (hf : ∀ a b, A a b → P (f a) (g b)) :
    List.Forall₂ (List.Forall₂ P) (l.map (·.map f)) (l'.map (·.map g)) :=
  forall₂_map h (fun _ _ h => forall₂_map h hf)

theorem Go.rel_mapM_same {f : α → Go γ} {g : α → Go δ} (l : List α)
    (hf : ∀ a, Go.Rel P (f a) (g a)) : Go.Rel (List.Forall₂ P) (l.mapM f) (l.mapM g) := by
  refine Go.rel_mapM (A := fun a b => a = b) (List.forall₂_same.2 (fun _ _ => rfl)) ?_
  rintro a _ rfl
  exact hf a

theorem Go.rel_mapM₂ {f : α → Go γ} {g : β → Go δ} {l : List (List α)} {l' : List (List β)}
    (h : List.Forall₂ (List.Forall₂ A) l l') (hf : ∀ a b, A a b → Go.Rel P (f a) (g b)) :
    Go.Rel (List.Forall₂ (List.Forall₂ P)) (l.mapM (·.mapM f)) (l'.mapM (·.mapM g)) :=
  Go.rel_mapM h (fun _ _ h => Go.rel_mapM h hf)

theorem forall₂_zipIdx {l : List α} {l' : List β} (h : List.Forall₂ A l l') (n : ℕ) :
    List.Forall₂ (fun a b => A a.1 b.1 ∧ a.2 = b.2) (l.zipIdx n) (l'.zipIdx n) := by
  induction h generalizing n with
  | nil => exact List.Forall₂.nil
  | cons hx _ ih => exact List.Forall₂.cons ⟨hx, rfl⟩ (ih _)

theorem forall₂_flatten {l : List (List α)} {l' : List (List β)}
    (h : List.Forall₂ (List.Forall₂ A) l l') : List.Forall₂ A l.flatten l'.flatten := by
  induction h with
  | nil => exact List.Forall₂.nil
  | cons hx _ ih => exact List.rel_append hx ih

theorem any_rel {l : List α} {l' : List β} (h : List.Forall₂ A l l') {f : α → Bool} {g : β → Bool}
    (hf : ∀ a b, A a b → f a = g b) : l.any f = l'.any g := by
  induction h with
  | nil => rfl
  | cons hx _ ih => rw [List.any_cons, List.any_cons, ih, hf _ _ hx]

theorem all_rel {l : List α} {l' : List β} (h : List.Forall₂ A l l') {f : α → Bool} {g : β → Bool}
    (hf : ∀ a b, A a b → f a = g b) : l.all f = l'.all g := by
  induction h with
  | nil => rfl
  | cons hx _ ih => rw [List.all_cons, List.all_cons, ih, hf _ _ hx]

theorem rowDims_rel {l : List (List α)} {l' : List (List β)} (h : List.Forall₂ (List.Forall₂ A) l l') :
    Go.Rel (· = ·) (rowDims l) (rowDims l') := by
  cases h with
  | nil => exact Go.rel_throw _
  | cons hx h => exact Go.rel_pure (by rw [hx.length_eq, h.length_eq])

theorem checkRows_rel {l : List (List α)} {l' : List (List β)} (h : List.Forall₂ (List.Forall₂ A) l l')
    {f : α → Go Unit} {g : β → Go Unit}
    (hf : ∀ a b, A a b → Go.Rel (fun _ _ => True) (f a) (g b)) :
    Go.Rel (fun _ _ => True) (checkRows l f) (checkRows l' g) := by
  cases h with
  | nil => exact Go.rel_throw _
  | cons hx h =>
    refine Go.Rel.bind (Go.rel_forM (List.Forall₂.cons hx h) (fun r s hr => ?_)) (fun _ _ _ => ?_)
    · exact Go.rel_ite (by rw [hx.length_eq, hr.length_eq]) (fun _ => Go.rel_throw _) (fun _ => trivial)
    · exact Go.rel_forM (List.Forall₂.cons hx h) (fun _ _ hr => Go.rel_forM hr hf)

theorem transposeRows_rel {l : List (List α)} {l' : List (List β)}
    (h : List.Forall₂ (List.Forall₂ A) l l') (c : ℕ) :
    Go.Rel (List.Forall₂ (List.Forall₂ A)) (transposeRows l c) (transposeRows l' c) :=
  Go.rel_mapM_same _ (fun _ => Go.rel_mapM h (fun _ _ h => goGet_rel h _))

end

variable {R K : Type} [GoNum R] [Field K] [LinearOrder K]

section
variable (F : FloatModel R K) (G : AddSubgroup K) (B : K)

/-- The same vector, entry by entry. -/
def VecRel : Vec R → Vec K → Prop
  | .k l, .k l' => List.Forall₂ (fun a b => SRel F G B (.k a) (.k b)) l l'
  | .v l, .v l' => List.Forall₂ (fun a b => SRel F G B (.var a) (.var b)) l l'
  | .m l, .m l' => List.Forall₂ (fun a b => SRel F G B (.mono a) (.mono b)) l l'
  | .p l, .p l' => List.Forall₂ (fun a b => SRel F G B (.poly a) (.poly b)) l l'
  | _, _ => False

/-- The same matrix, entry by entry. -/
def MatRel : Mat R → Mat K → Prop
  | .k l, .k l' => List.Forall₂ (List.Forall₂ (fun a b => SRel F G B (.k a) (.k b))) l l'
  | .v l, .v l' => List.Forall₂ (List.Forall₂ (fun a b => SRel F G B (.var a) (.var b))) l l'
  | .m l, .m l' => List.Forall₂ (List.Forall₂ (fun a b => SRel F G B (.mono a) (.mono b))) l l'
  | .p l, .p l' => List.Forall₂ (List.Forall₂ (fun a b => SRel F G B (.poly a) (.poly b))) l l'
  | _, _ => False

/-- The same expression, entry by entry. -/
def ERel : Expr R → Expr K → Prop
  | .s a, .s b => SRel F G B a b
  | .v a, .v b => VecRel F G B a b
  | .m a, .m b => MatRel F G B a b
  | _, _ => False

end

variable {F : FloatModel R K} {G : AddSubgroup K} {B B1 B2 : K}
variable [IsStrictOrderedRing K]

theorem forall₂_imp₂ {α β : Type} {A A' : α → β → Prop} (h : ∀ a b, A a b → A' a b)
    {l : List (List α)} {l' : List (List β)} (hl : List.Forall₂ (List.Forall₂ A) l l') :
    List.Forall₂ (List.Forall₂ A') l l' := hl.imp (fun _ _ hr => hr.imp h)

theorem VecRel.weaken {G' : AddSubgroup K} (hG : G ≤ G') (hB : B1 ≤ B2) {a : Vec R} {b : Vec K}
    (h : VecRel F G B1 a b) : VecRel F G' B2 a b := by
  match a, b, h with
  | .k _, .k _, h => exact h.imp (fun _ _ h => (h.grade hG).mono hB)
  | .v _, .v _, h => exact h.imp (fun _ _ h => (h.grade hG).mono hB)
  | .m _, .m _, h => exact h.imp (fun _ _ h => (h.grade hG).mono hB)
  | .p _, .p _, h => exact h.imp (fun _ _ h => (h.grade hG).mono hB)

theorem MatRel.weaken {G' : AddSubgroup K} (hG : G ≤ G') (hB : B1 ≤ B2) {a : Mat R} {b : Mat K}
    (h : MatRel F G B1 a b) : MatRel F G' B2 a b := by
  match a, b, h with
  | .k _, .k _, h => exact forall₂_imp₂ (fun _ _ h => (h.grade hG).mono hB) h
  | .v _, .v _, h => exact forall₂_imp₂ (fun _ _ h => (h.grade hG).mono hB) h
  | .m _, .m _, h => exact forall₂_imp₂ (fun _ _ h => (h.grade hG).mono hB) h
  | .p _, .p _, h => exact forall₂_imp₂ (fun _ _ h => (h.grade hG).mono hB) h

theorem ERel.weaken {G' : AddSubgroup K} (hG : G ≤ G') (hB : B1 ≤ B2) {a : Expr R} {b : Expr K}
    (h : ERel F G B1 a b) : ERel F G' B2 a b := by
  match a, b, h with
  | .s _, .s _, h => exact (SRel.grade h hG).mono hB
  | .v _, .v _, h => exact VecRel.weaken hG hB h
  | .m _, .m _, h => exact MatRel.weaken hG hB h

theorem ERel.mono (hB : B1 ≤ B2) {a : Expr R} {b : Expr K}
    (h : ERel F G B1 a b) : ERel F G B2 a b := h.weaken le_rfl hB

theorem VecRel.entries {a : Vec R} {b : Vec K} (h : VecRel F G B a b) :
    List.Forall₂ (SRel F G B) a.entries b.entries := by
  match a, b, h with
  | .k _, .k _, h => exact forall₂_map h (fun _ _ h => h)
  | .v _, .v _, h => exact forall₂_map h (fun _ _ h => h)
  | .m _, .m _, h => exact forall₂_map h (fun _ _ h => h)
  | .p _, .p _, h => exact forall₂_map h (fun _ _ h => h)

/-! ## Check, Dims, Len, At -/

theorem VecRel.check {a : Vec R} {b : Vec K} (h : VecRel F G B a b) :
    Go.Rel (fun _ _ => True) a.check b.check := by
  match a, b, h with
  | .k _, .k _, h => trivial
  | .v _, .v _, h => exact Go.rel_forM h (fun _ _ h => SRel.check h)
  | .m _, .m _, h =>
    exact Go.rel_ite (forall₂_nil_iff h) (fun _ => Go.rel_throw _)
      (fun _ => Go.rel_forM h (fun _ _ h => SRel.check h))
  | .p _, .p _, h =>
    exact Go.rel_ite (forall₂_nil_iff h) (fun _ => Go.rel_throw _)
      (fun _ => Go.rel_forM h (fun _ _ h => SRel.check h))

theorem MatRel.check {a : Mat R} {b : Mat K} (h : MatRel F G B a b) :
    Go.Rel (fun _ _ => True) a.check b.check := by
  match a, b, h with
  | .k _, .k _, h => trivial
  | .v _, .v _, h => exact checkRows_rel h (fun _ _ h => SRel.check h)
  | .m _, .m _, h => exact checkRows_rel h (fun _ _ h => SRel.check h)
  | .p _, .p _, h => exact checkRows_rel h (fun _ _ h => SRel.check h)

theorem ERel.check {a : Expr R} {b : Expr K} (h : ERel F G B a b) :
    Go.Rel (fun _ _ => True) a.check b.check := by
  match a, b, h with
  | .s _, .s _, h => exact SRel.check h
  | .v _, .v _, h => exact VecRel.check h
  | .m _, .m _, h => exact MatRel.check h

theorem VecRel.len {a : Vec R} {b : Vec K} (h : VecRel F G B a b) :
    Go.Rel (· = ·) a.len b.len := by
  match a, b, h with
  | .k _, .k _, h => exact Go.rel_pure h.length_eq
  | .v _, .v _, h => exact Go.rel_pure h.length_eq
  | .m _, .m _, h => exact Go.rel_pure h.length_eq
  | .p l, .p l', h =>
    exact Go.Rel.bind (VecRel.check (a := .p l) (b := .p l') h)
      (fun _ _ _ => Go.rel_pure h.length_eq)

theorem VecRel.dims {a : Vec R} {b : Vec K} (h : VecRel F G B a b) :
    Go.Rel (· = ·) a.dims b.dims := by
  refine Go.Rel.bind h.len ?_
  rintro n _ rfl
  exact Go.rel_pure rfl

theorem MatRel.dims {a : Mat R} {b : Mat K} (h : MatRel F G B a b) :
    Go.Rel (· = ·) a.dims b.dims := by
  refine Go.Rel.bind h.check (fun _ _ _ => ?_)
  match a, b, h with
  | .k _, .k _, h => exact rowDims_rel h
  | .v _, .v _, h => exact rowDims_rel h
  | .m _, .m _, h => exact rowDims_rel h
  | .p _, .p _, h => exact rowDims_rel h

theorem ERel.dims {a : Expr R} {b : Expr K} (h : ERel F G B a b) :
    Go.Rel (· = ·) a.dims b.dims := by
  match a, b, h with
  | .s _, .s _, h => exact Go.rel_pure rfl
  | .v _, .v _, h => exact VecRel.dims h
  | .m _, .m _, h => exact MatRel.dims h

theorem VecRel.atVec {a : Vec R} {b : Vec K} (h : VecRel F G B a b) (i : Int) :
    Go.Rel (SRel F G B) (a.atVec i) (b.atVec i) := by
  match a, b, h with
  | .k l, .k l', h =>
    unfold Vec.atVec
    simp only
    rw [h.length_eq]
    exact Go.Rel.bind (Go.rel_unit _) (fun _ _ _ => Go.Rel.bind (goGet_rel h i)
      (fun _ _ h => Go.rel_pure h))
  | .v l, .v l', h =>
    unfold Vec.atVec
    simp only
    rw [h.length_eq]
    exact Go.Rel.bind (Go.rel_unit _) (fun _ _ _ => Go.Rel.bind (goGet_rel h i)
      (fun _ _ h => Go.rel_pure h))
  | .m l, .m l', h =>
    exact Go.Rel.bind (VecRel.check (a := .m l) (b := .m l') h) (fun _ _ _ =>
      Go.Rel.bind (goGet_rel h i) (fun _ _ h => Go.rel_pure h))
  | .p l, .p l', h =>
    refine Go.Rel.bind (VecRel.check (a := .p l) (b := .p l') h) (fun _ _ _ =>
      Go.Rel.bind (VecRel.dims (a := .p l) (b := .p l') h) ?_)
    rintro d _ rfl
    exact Go.Rel.bind (Go.rel_unit _) (fun _ _ _ => Go.Rel.bind (goGet_rel h i)
      (fun _ _ h => Go.rel_pure h))

theorem VecRel.at {a : Vec R} {b : Vec K} (h : VecRel F G B a b) (i j : Int) :
    Go.Rel (SRel F G B) (a.at i j) (b.at i j) := by
  match a, b, h with
  | .k l, .k l', h =>
    unfold Vec.at
    simp only
    rw [h.length_eq]
    exact Go.Rel.bind (Go.rel_unit _) (fun _ _ _ => VecRel.atVec (a := .k l) (b := .k l') h i)
  | .v l, .v l', h =>
    unfold Vec.at
    simp only
    rw [h.length_eq]
    exact Go.Rel.bind (VecRel.check (a := .v l) (b := .v l') h) (fun _ _ _ =>
      Go.Rel.bind (Go.rel_unit _) (fun _ _ _ => Go.Rel.bind (goGet_rel h i)
      (fun _ _ h => Go.rel_pure h)))
  | .m l, .m l', h =>
    unfold Vec.at
    simp only
    rw [h.length_eq]
    exact Go.Rel.bind (VecRel.check (a := .m l) (b := .m l') h) (fun _ _ _ =>
      Go.Rel.bind (Go.rel_unit _) (fun _ _ _ => Go.Rel.bind (goGet_rel h i)
      (fun _ _ h => Go.rel_pure h)))
  | .p l, .p l', h =>
    refine Go.Rel.bind (VecRel.check (a := .p l) (b := .p l') h) (fun _ _ _ =>
      Go.Rel.bind (VecRel.dims (a := .p l) (b := .p l') h) ?_)
    rintro d _ rfl
    exact Go.Rel.bind (Go.rel_unit _) (fun _ _ _ => Go.Rel.bind (goGet_rel h i)
      (fun _ _ h => Go.rel_pure h))

theorem kToDense_rel {l : List (List R)} {l' : List (List K)} {A : R → K → Prop}
    (h : List.Forall₂ (List.Forall₂ A) l l') :
    Go.Rel (List.Forall₂ (List.Forall₂ A)) (kToDense l) (kToDense l') := by
  refine Go.Rel.bind (rowDims_rel h) ?_
  rintro d _ rfl
  refine Go.rel_ite Iff.rfl (fun _ => Go.rel_throw _) (fun _ => ?_)
  exact Go.rel_mapM h (fun _ _ h => Go.rel_mapM_same _ (fun _ => goGet_rel h _))

theorem MatRel.at {a : Mat R} {b : Mat K} (h : MatRel F G B a b) (i j : Int) :
    Go.Rel (SRel F G B) (a.at i j) (b.at i j) := by
  match a, b, h with
  | .k l, .k l', h =>
    exact Go.Rel.bind (kToDense_rel h) (fun _ _ h => Go.Rel.bind (goGet2_rel h i j)
      (fun _ _ h => Go.rel_pure h))
  | .v l, .v l', h =>
    exact Go.Rel.bind (MatRel.check (a := .v l) (b := .v l') h) (fun _ _ _ =>
      Go.Rel.bind (goGet2_rel h i j) (fun _ _ h => Go.rel_pure h))
  | .m l, .m l', h =>
    exact Go.Rel.bind (MatRel.check (a := .m l) (b := .m l') h) (fun _ _ _ =>
      Go.Rel.bind (goGet2_rel h i j) (fun _ _ h => Go.rel_pure h))
  | .p l, .p l', h =>
    refine Go.Rel.bind (MatRel.check (a := .p l) (b := .p l') h) (fun _ _ _ =>
      Go.Rel.bind (MatRel.dims (a := .p l) (b := .p l') h) ?_)
    rintro d _ rfl
    exact Go.Rel.bind (Go.rel_unit _) (fun _ _ _ => Go.Rel.bind (goGet2_rel h i j)
      (fun _ _ h => Go.rel_pure h))

theorem ERel.at {a : Expr R} {b : Expr K} (h : ERel F G B a b) (i j : Int) :
    Go.Rel (SRel F G B) (a.at i j) (b.at i j) := by
  match a, b, h with
  | .s _, .s _, h =>
    exact Go.Rel.bind (SRel.check h) (fun _ _ _ => Go.Rel.bind (Go.rel_unit _)
      (fun _ _ _ => Go.rel_pure h))
  | .v _, .v _, h => exact VecRel.at h i j
  | .m _, .m _, h => exact MatRel.at h i j

/-! ## Concretize -/

theorem SRel.toPoly (hone : 1 ∈ G) {a : Scalar R} {b : Scalar K} (h : SRel F G B a b) :
    SRel F G B (.poly a.toPoly) (.poly b.toPoly) := by
  match a, b, h with
  | .k _, .k _, h => exact (mrel_const h.1).single h.2
  | .var _, .var _, h =>
    exact MRel.single ⟨⟨F.one, hone⟩, rfl, List.Forall₂.cons h.1 List.Forall₂.nil⟩
      (by show |(1 : K)| ≤ B; rw [abs_one]; exact h.2)
  | .mono _, .mono _, h => exact h.1.single h.2
  | .poly _, .poly _, h => exact h

theorem SRel.toMono (hone : 1 ∈ G) {a : Scalar R} {b : Scalar K} (h : SRel F G B a b) :
    Go.Rel (fun x y => SRel F G B (.mono x) (.mono y)) a.toMono b.toMono := by
  match a, b, h with
  | .k _, .k _, h => exact Go.rel_pure ⟨mrel_const h.1, h.2⟩
  | .var _, .var _, h =>
    exact Go.rel_pure ⟨⟨⟨F.one, hone⟩, rfl, List.Forall₂.cons h.1 List.Forall₂.nil⟩,
      (by show |(1 : K)| ≤ B; rw [abs_one]; exact h.2)⟩
  | .mono _, .mono _, h => exact Go.rel_pure h
  | .poly _, .poly _, h => exact Go.rel_throw _

theorem SRel.toVar {a : Scalar R} {b : Scalar K} (h : SRel F G B a b) :
    Go.Rel (fun x y => SRel F G B (.var x) (.var y)) a.toVar b.toVar := by
  match a, b, h with
  | .k _, .k _, h => exact Go.rel_throw _
  | .var _, .var _, h => exact Go.rel_pure h
  | .mono _, .mono _, h => exact Go.rel_throw _
  | .poly _, .poly _, h => exact Go.rel_throw _

theorem SRel.toK {a : Scalar R} {b : Scalar K} (h : SRel F G B a b) :
    Go.Rel (fun x y => SRel F G B (.k x) (.k y)) a.toK b.toK := by
  match a, b, h with
  | .k _, .k _, h => exact Go.rel_pure h
  | .var _, .var _, h => exact Go.rel_throw _
  | .mono _, .mono _, h => exact Go.rel_throw _
  | .poly _, .poly _, h => exact Go.rel_throw _

theorem SRel.kind {a : Scalar R} {b : Scalar K} (h : SRel F G B a b) :
    a.isK = b.isK ∧ a.isVar = b.isVar ∧ a.isMono = b.isMono ∧ a.isPoly = b.isPoly := by
  match a, b, h with
  | .k _, .k _, h => exact ⟨rfl, rfl, rfl, rfl⟩
  | .var _, .var _, h => exact ⟨rfl, rfl, rfl, rfl⟩
  | .mono _, .mono _, h => exact ⟨rfl, rfl, rfl, rfl⟩
  | .poly _, .poly _, h => exact ⟨rfl, rfl, rfl, rfl⟩

theorem concretizeVec_rel (hone : 1 ∈ G) {l : List (Scalar R)} {l' : List (Scalar K)}
    (h : List.Forall₂ (SRel F G B) l l') :
    Go.Rel (VecRel F G B) (concretizeVec l) (concretizeVec l') := by
  have e1 := any_rel h (f := Scalar.isPoly) (g := Scalar.isPoly) (fun _ _ h => h.kind.2.2.2)
  have e2 := any_rel h (f := Scalar.isMono) (g := Scalar.isMono) (fun _ _ h => h.kind.2.2.1)
  have e3 := any_rel h (f := Scalar.isK) (g := Scalar.isK) (fun _ _ h => h.kind.1)
  have e4 := any_rel h (f := Scalar.isVar) (g := Scalar.isVar) (fun _ _ h => h.kind.2.1)
  have e5 := all_rel h (f := Scalar.isVar) (g := Scalar.isVar) (fun _ _ h => h.kind.2.1)
  unfold concretizeVec
  rw [e1, e2, e3, e4, e5]
  refine Go.rel_ite (forall₂_nil_iff h) (fun _ => Go.rel_throw _) (fun _ => ?_)
  refine Go.rel_ite Iff.rfl (fun _ => ?_) (fun _ => ?_)
  · exact Go.rel_pure (a := Vec.p _) (b := Vec.p _) (forall₂_map h (fun _ _ h => h.toPoly hone))
  refine Go.rel_ite Iff.rfl (fun _ => ?_) (fun _ => ?_)
  · exact Go.Rel.bind (Go.rel_mapM h (fun _ _ h => h.toMono hone))
      (fun _ _ h => Go.rel_pure (a := Vec.m _) (b := Vec.m _) h)
  refine Go.rel_ite Iff.rfl (fun _ => ?_) (fun _ => ?_)
  · exact Go.Rel.bind (Go.rel_mapM h (fun _ _ h => h.toVar))
      (fun _ _ h => Go.rel_pure (a := Vec.v _) (b := Vec.v _) h)
  refine Go.rel_ite Iff.rfl (fun _ => ?_) (fun _ => Go.rel_throw _)
  · exact Go.Rel.bind (Go.rel_mapM h (fun _ _ h => h.toK))
      (fun _ _ h => Go.rel_pure (a := Vec.k _) (b := Vec.k _) h)

theorem concretizeMat_rel (hone : 1 ∈ G) {l : List (List (Scalar R))} {l' : List (List (Scalar K))}
    (h : List.Forall₂ (List.Forall₂ (SRel F G B)) l l') :
    Go.Rel (MatRel F G B) (concretizeMat l) (concretizeMat l') := by
  have hl := forall₂_flatten h
  have e1 := any_rel hl (f := Scalar.isPoly) (g := Scalar.isPoly) (fun _ _ h => h.kind.2.2.2)
  have e2 := any_rel hl (f := Scalar.isMono) (g := Scalar.isMono) (fun _ _ h => h.kind.2.2.1)
  have e3 := any_rel hl (f := Scalar.isK) (g := Scalar.isK) (fun _ _ h => h.kind.1)
  have e4 := any_rel hl (f := Scalar.isVar) (g := Scalar.isVar) (fun _ _ h => h.kind.2.1)
  have e5 := all_rel hl (f := Scalar.isVar) (g := Scalar.isVar) (fun _ _ h => h.kind.2.1)
  have fin : ∀ (_ _ : Unit), True → Go.Rel (MatRel F G B)
      (if l.flatten.any Scalar.isPoly then pure (Mat.p (l.map (·.map Scalar.toPoly)))
        else if l.flatten.any Scalar.isMono || (l.flatten.any Scalar.isVar && l.flatten.any Scalar.isK) then do
          pure (Mat.m (← l.mapM (·.mapM Scalar.toMono)))
        else if l.flatten.all Scalar.isVar then do pure (Mat.v (← l.mapM (·.mapM Scalar.toVar)))
        else if l.flatten.any Scalar.isK then do pure (Mat.k (← l.mapM (·.mapM Scalar.toK)))
        else throw .other)
      (if l'.flatten.any Scalar.isPoly then pure (Mat.p (l'.map (·.map Scalar.toPoly)))
        else if l'.flatten.any Scalar.isMono || (l'.flatten.any Scalar.isVar && l'.flatten.any Scalar.isK) then do
          pure (Mat.m (← l'.mapM (·.mapM Scalar.toMono)))
        else if l'.flatten.all Scalar.isVar then do pure (Mat.v (← l'.mapM (·.mapM Scalar.toVar)))
        else if l'.flatten.any Scalar.isK then do pure (Mat.k (← l'.mapM (·.mapM Scalar.toK)))
        else throw .other) := by
    intro _ _ _
    rw [e1, e2, e3, e4, e5]
    refine Go.rel_ite Iff.rfl (fun _ => ?_) (fun _ => ?_)
    · exact Go.rel_pure (a := Mat.p _) (b := Mat.p _) (forall₂_map₂ h (fun _ _ h => h.toPoly hone))
    refine Go.rel_ite Iff.rfl (fun _ => ?_) (fun _ => ?_)
    · exact Go.Rel.bind (Go.rel_mapM₂ h (fun _ _ h => h.toMono hone))
        (fun _ _ h => Go.rel_pure (a := Mat.m _) (b := Mat.m _) h)
    refine Go.rel_ite Iff.rfl (fun _ => ?_) (fun _ => ?_)
    · exact Go.Rel.bind (Go.rel_mapM₂ h (fun _ _ h => h.toVar))
        (fun _ _ h => Go.rel_pure (a := Mat.v _) (b := Mat.v _) h)
    refine Go.rel_ite Iff.rfl (fun _ => ?_) (fun _ => Go.rel_throw _)
    · exact Go.Rel.bind (Go.rel_mapM₂ h (fun _ _ h => h.toK))
        (fun _ _ h => Go.rel_pure (a := Mat.k _) (b := Mat.k _) h)
  unfold concretizeMat
  cases h with
  | nil => exact Go.rel_throw _
  | cons hx ht =>
    refine Go.Rel.bind (Go.rel_forM (List.Forall₂.cons hx ht) (fun r s hr => ?_)) fin
    exact Go.rel_ite (by rw [hx.length_eq, hr.length_eq]) (fun _ => Go.rel_throw _) (fun _ => trivial)

theorem concretizeV_rel (hone : 1 ∈ G) {l : List (Scalar R)} {l' : List (Scalar K)}
    (h : List.Forall₂ (SRel F G B) l l') :
    Go.Rel (ERel F G B) (concretizeV l) (concretizeV l') := by
  refine Go.Rel.bind (concretizeVec_rel hone h) (fun a b h => Go.Rel.bind h.dims ?_)
  rintro d _ rfl
  refine Go.rel_ite Iff.rfl (fun _ => ?_) (fun _ => ?_)
  · exact Go.Rel.bind (h.at 0 0) (fun _ _ h => Go.rel_pure (a := Expr.s _) (b := Expr.s _) h)
  · exact Go.rel_pure (a := Expr.v _) (b := Expr.v _) h

theorem concretizeM_rel (hone : 1 ∈ G) {l : List (List (Scalar R))} {l' : List (List (Scalar K))}
    (h : List.Forall₂ (List.Forall₂ (SRel F G B)) l l') :
    Go.Rel (ERel F G B) (concretizeM l) (concretizeM l') := by
  refine Go.Rel.bind (concretizeMat_rel hone h) (fun a b h => Go.Rel.bind h.dims ?_)
  rintro d _ rfl
  refine Go.rel_ite Iff.rfl (fun _ => ?_) (fun _ => Go.rel_ite Iff.rfl (fun _ => ?_) (fun _ => ?_))
  · exact Go.Rel.bind (h.at 0 0) (fun _ _ h => Go.rel_pure (a := Expr.s _) (b := Expr.s _) h)
  · exact Go.Rel.bind (Go.rel_mapM_same _ (fun _ => h.at _ _)) (fun _ _ h =>
      Go.Rel.bind (concretizeVec_rel hone h)
        (fun _ _ h => Go.rel_pure (a := Expr.v _) (b := Expr.v _) h))
  · exact Go.rel_pure (a := Expr.m _) (b := Expr.m _) h

/-! ## AsSimplifiedExpression -/

theorem VecRel.asSimplified (hf : Fit F G B) {a : Vec R} {b : Vec K} (h : VecRel F G B a b) :
    Go.Rel (VecRel F G B) a.asSimplified b.asSimplified := by
  match a, b, h with
  | .k _, .k _, h => exact Go.rel_pure (a := Vec.k _) (b := Vec.k _) h
  | .v _, .v _, h => exact Go.rel_pure (a := Vec.v _) (b := Vec.v _) h
  | .m l, .m l', h =>
    exact Go.Rel.bind (VecRel.check (a := .m l) (b := .m l') h) (fun _ _ _ =>
      Go.Rel.bind (Go.rel_mapM h (fun _ _ h => SRel.asSimplified hf h))
        (fun _ _ h => concretizeVec_rel hf.one h))
  | .p l, .p l', h =>
    exact Go.Rel.bind (VecRel.check (a := .p l) (b := .p l') h) (fun _ _ _ =>
      Go.Rel.bind (Go.rel_mapM h (fun _ _ h => SRel.asSimplified hf h))
        (fun _ _ h => concretizeVec_rel hf.one h))

theorem MatRel.asSimplified (hf : Fit F G B) {a : Mat R} {b : Mat K} (h : MatRel F G B a b) :
    Go.Rel (MatRel F G B) a.asSimplified b.asSimplified := by
  match a, b, h with
  | .k _, .k _, h => exact Go.rel_pure (a := Mat.k _) (b := Mat.k _) h
  | .v _, .v _, h => exact Go.rel_pure (a := Mat.v _) (b := Mat.v _) h
  | .m l, .m l', h =>
    exact Go.Rel.bind (MatRel.check (a := .m l) (b := .m l') h) (fun _ _ _ =>
      Go.Rel.bind (Go.rel_mapM₂ h (fun _ _ h => SRel.asSimplified hf h))
        (fun _ _ h => concretizeMat_rel hf.one h))
  | .p l, .p l', h =>
    exact Go.Rel.bind (MatRel.check (a := .p l) (b := .p l') h) (fun _ _ _ =>
      Go.Rel.bind (Go.rel_mapM₂ h (fun _ _ h => SRel.asSimplified hf h))
        (fun _ _ h => concretizeMat_rel hf.one h))

theorem ERel.asSimplified (hf : Fit F G B) {a : Expr R} {b : Expr K} (h : ERel F G B a b) :
    Go.Rel (ERel F G B) a.asSimplified b.asSimplified := by
  match a, b, h with
  | .s _, .s _, h =>
    exact Go.Rel.bind (SRel.asSimplified hf h) (fun _ _ h => Go.rel_pure (a := Expr.s _) (b := Expr.s _) h)
  | .v _, .v _, h =>
    exact Go.Rel.bind (VecRel.asSimplified hf h) (fun _ _ h => Go.rel_pure (a := Expr.v _) (b := Expr.v _) h)
  | .m _, .m _, h =>
    exact Go.Rel.bind (MatRel.asSimplified hf h) (fun _ _ h => Go.rel_pure (a := Expr.m _) (b := Expr.m _) h)

/-! ## Plus -/

variable {𝒢 : Grids K} {i j : ℕ}

theorem vecPlusTemplate_rel (hf : Fit F G (B1 + B2)) {a : Vec R} {b : Vec K} (h : VecRel F G B1 a b)
    {c : Expr R} {d : Expr K} (h' : ERel F G B2 c d) :
    Go.Rel (ERel F G (B1 + B2)) (vecPlusTemplate a c) (vecPlusTemplate b d) := by
  match c, d, h' with
  | .s _, .s _, h' =>
    exact Go.Rel.bind (Go.rel_mapM h.entries (fun _ _ h => SRel.plus hf h h'))
      (fun _ _ h => concretizeV_rel hf.one h)
  | .v _, .v _, h' =>
    refine Go.Rel.bind (Go.rel_mapM (forall₂_zipIdx h.entries 0) ?_)
      (fun _ _ h => concretizeV_rel hf.one h)
    rintro ⟨x, k⟩ ⟨y, _⟩ ⟨h, rfl⟩
    exact Go.Rel.bind (VecRel.atVec h' k) (fun _ _ h' => SRel.plus hf h h')
  | .m _, .m _, h' => exact Go.rel_throw _

theorem VecRel.plus (hf : Fit F G (B1 + B2)) {a : Vec R} {b : Vec K} (h : VecRel F G B1 a b)
    {c : Expr R} {d : Expr K} (h' : ERel F G B2 c d) :
    Go.Rel (ERel F G (B1 + B2)) (a.plus c) (b.plus d) := by
  refine Go.Rel.bind h.check (fun _ _ _ => Go.Rel.bind h'.check (fun _ _ _ =>
    Go.Rel.bind h.dims ?_))
  rintro da _ rfl
  refine Go.Rel.bind h'.dims ?_
  rintro dc _ rfl
  exact Go.Rel.bind (Go.rel_unit _) (fun _ _ _ => Go.Rel.bind (vecPlusTemplate_rel hf h h')
    (fun _ _ h => h.asSimplified hf))

theorem matPlusTemplate_rel (hf : Fit F G (B1 + B2)) {a c : Mat R} {b d : Mat K}
    (h : MatRel F G B1 a b) (h' : MatRel F G B2 c d) :
    Go.Rel (MatRel F G (B1 + B2)) (matPlusTemplate a c) (matPlusTemplate b d) := by
  refine Go.Rel.bind h.check (fun _ _ _ => Go.Rel.bind h'.check (fun _ _ _ =>
    Go.Rel.bind h.dims ?_))
  rintro da _ rfl
  refine Go.Rel.bind h'.dims ?_
  rintro dc _ rfl
  refine Go.rel_ite Iff.rfl (fun _ => Go.rel_throw _) (fun _ => ?_)
  refine Go.Rel.bind (Go.rel_mapM_same _ (fun k => Go.rel_mapM_same _ (fun l => ?_)))
    (fun _ _ h => concretizeMat_rel hf.one h)
  exact Go.Rel.bind (h.at _ _) (fun _ _ h => Go.Rel.bind (h'.at _ _) (fun _ _ h' => SRel.plus hf h h'))

/-- A constant times one. -/
theorem mulOne_rel (hf : Fit F (𝒢.g i) B) {x : R} {q : K} (h : SRel F (𝒢.g i) B (.k x) (.k q)) :
    SRel F (𝒢.g i) B (.k (GoNum.mul x GoNum.one)) (.k (GoNum.mul q GoNum.one)) := by
  have h1 := CRel.mul (i := i) (j := 0) (B1 := B) (B2 := 1) (by rwa [Nat.add_zero, mul_one])
    h.1 ⟨F.one, 𝒢.one 0⟩ h.2 (by rw [abs_one])
  rw [Nat.add_zero] at h1
  exact ⟨h1, by have := h.2; simpa using this⟩

theorem constRows_rel (hf : Fit F (𝒢.g i) B) (d : ℕ × ℕ) {x : R} {q : K}
    (h : SRel F (𝒢.g i) B (.k x) (.k q)) :
    Go.Rel (List.Forall₂ (List.Forall₂ (fun a b => SRel F (𝒢.g i) B (.k a) (.k b))))
      (constRows d x) (constRows d q) :=
  Go.rel_ite Iff.rfl (fun _ => Go.rel_throw _)
    (fun _ => Go.rel_pure (forall₂_replicate (forall₂_replicate
      (A := fun a b => SRel F (𝒢.g i) B (.k a) (.k b)) (mulOne_rel hf h) _) _))

theorem forall₂_zipWith {α β γ δ ε ζ : Type} {A : α → β → Prop} {P : γ → δ → Prop} {Q : ε → ζ → Prop}
    {f : α → γ → ε} {g : β → δ → ζ} (hf : ∀ a b c d, A a b → P c d → Q (f a c) (g b d))
    {l : List α} {l' : List β} (h : List.Forall₂ A l l') {r : List γ} {r' : List δ}
    (h' : List.Forall₂ P r r') : List.Forall₂ Q (List.zipWith f l r) (List.zipWith g l' r') := by
  induction h generalizing r r' with
  | nil => exact List.Forall₂.nil
  | cons hx _ ih =>
    cases h' with
    | nil => exact List.Forall₂.nil
    | cons hy h' => exact List.Forall₂.cons (hf _ _ _ _ hx hy) (ih h')

theorem kmPlus_rel (hf : Fit F (𝒢.g i) (B1 + B2)) {l : List (List R)} {l' : List (List K)}
    (h : MatRel F (𝒢.g i) B1 (.k l) (.k l')) (hB1 : 0 ≤ B1) {c : Expr R} {d : Expr K}
    (h' : ERel F (𝒢.g i) B2 c d) :
    Go.Rel (ERel F (𝒢.g i) (B1 + B2)) (kmPlus l c) (kmPlus l' d) := by
  refine Go.Rel.bind h'.check (fun _ _ _ => Go.Rel.bind (rowDims_rel h) ?_)
  rintro da _ rfl
  refine Go.Rel.bind h'.dims ?_
  rintro dc _ rfl
  refine Go.Rel.bind (Go.rel_unit _) (fun _ _ _ => ?_)
  match c, d, h' with
  | .s (.k x), .s (.k q), h' =>
    refine Go.Rel.bind (constRows_rel (hf.mono (by linarith)) da h') (fun _ _ h1 =>
      Go.Rel.bind (kToDense_rel h) (fun _ _ h2 => Go.rel_pure (a := Expr.m (.k _)) (b := Expr.m (.k _)) ?_))
    refine forall₂_zipWith
      (P := List.Forall₂ (fun a b => SRel F (𝒢.g i) B1 (.k a) (.k b)))
      (A := List.Forall₂ (fun a b => SRel F (𝒢.g i) B2 (.k a) (.k b)))
      (fun _ _ _ _ ha hb => forall₂_zipWith (fun x p y q hx hy => ?_) ha hb) h1 h2
    have hB := add_le_add hx.2 hy.2
    rw [add_comm B2 B1] at hB
    exact ⟨hf.add hx.1 hy.1 hB, (abs_add_le _ _).trans hB⟩
  | .s (.var v), .s (.var w), h' =>
    refine Go.Rel.bind (matPlusTemplate_rel hf (a := .k l) (b := .k l') h (c := .v _) (d := .v _)
      (forall₂_replicate (forall₂_replicate (A := fun a b => SRel F (𝒢.g i) B2 (.var a) (.var b)) h' _) _))
      (fun _ _ h => ?_)
    exact Go.Rel.bind (h.asSimplified hf) (fun _ _ h => Go.Rel.bind (h.asSimplified hf)
      (fun _ _ h => Go.rel_pure (a := Expr.m _) (b := Expr.m _) h))
  | .s (.mono _), .s (.mono _), _ => exact Go.rel_throw _
  | .s (.poly _), .s (.poly _), _ => exact Go.rel_throw _
  | .v _, .v _, _ => exact Go.rel_throw _
  | .m _, .m _, h' =>
    exact Go.Rel.bind (matPlusTemplate_rel hf (a := .k l) (b := .k l') h h') (fun _ _ h =>
      Go.Rel.bind (h.asSimplified hf) (fun _ _ h => Go.rel_pure (a := Expr.m _) (b := Expr.m _) h))

theorem vmPlusK_rel (hf : Fit F G (B1 + B2)) {l : List (List (Var R))} {l' : List (List (Var K))}
    (h : MatRel F G B1 (.v l) (.v l')) {r : List (List R)} {r' : List (List K)}
    (h' : MatRel F G B2 (.k r) (.k r')) :
    Go.Rel (ERel F G (B1 + B2)) (vmPlusK l r) (vmPlusK l' r') := by
  refine Go.Rel.bind (A := List.Forall₂ (List.Forall₂ (fun a b =>
    SRel F G (B1 + B2) (.poly a) (.poly b)))) (Go.rel_mapM (forall₂_zipIdx h 0) ?_)
    (fun _ _ h => Go.rel_pure (a := Expr.m (.p _)) (b := Expr.m (.p _)) h)
  rintro ⟨x, k⟩ ⟨y, _⟩ ⟨h, rfl⟩
  refine Go.rel_mapM (forall₂_zipIdx h 0) ?_
  rintro ⟨x, k⟩ ⟨y, _⟩ ⟨h, rfl⟩
  refine Go.Rel.bind (goGet2_rel h' _ _) (fun p q hpq =>
    Go.Rel.bind (h.1.plus hf h.2 (a := .k p) (b := .k q) hpq) (fun u w huw => ?_))
  match u, w, huw with
  | .k _, .k _, _ => exact Go.rel_throw _
  | .var _, .var _, _ => exact Go.rel_throw _
  | .mono _, .mono _, _ => exact Go.rel_throw _
  | .poly _, .poly _, h => exact Go.rel_pure h

theorem vmPlus_rel (hf : Fit F (𝒢.g i) (B1 + B2)) {l : List (List (Var R))} {l' : List (List (Var K))}
    (h : MatRel F (𝒢.g i) B1 (.v l) (.v l')) (hB1 : 0 ≤ B1) {c : Expr R} {d : Expr K}
    (h' : ERel F (𝒢.g i) B2 c d) :
    Go.Rel (ERel F (𝒢.g i) (B1 + B2)) (vmPlus l c) (vmPlus l' d) := by
  refine Go.Rel.bind h.check (fun _ _ _ => Go.Rel.bind h'.check (fun _ _ _ =>
    Go.Rel.bind (rowDims_rel h) ?_))
  rintro da _ rfl
  refine Go.Rel.bind h'.dims ?_
  rintro dc _ rfl
  refine Go.Rel.bind (Go.rel_unit _) (fun _ _ _ => ?_)
  match c, d, h' with
  | .s (.k x), .s (.k q), h' =>
    exact Go.Rel.bind (constRows_rel (hf.mono (by linarith)) da h') (fun _ _ h1 =>
      vmPlusK_rel hf h h1)
  | .s (.var v), .s (.var w), h' => exact Go.rel_throw _
  | .s (.mono _), .s (.mono _), _ => exact Go.rel_throw _
  | .s (.poly _), .s (.poly _), _ => exact Go.rel_throw _
  | .v _, .v _, _ => exact Go.rel_throw _
  | .m (.k _), .m (.k _), h' => exact vmPlusK_rel hf h h'
  | .m (.v _), .m (.v _), h' => exact Go.rel_throw _
  | .m (.m _), .m (.m _), h' => exact Go.rel_throw _
  | .m (.p _), .m (.p _), h' => exact Go.rel_throw _

theorem mmPlusEntry_rel (hf : Fit F G (B1 + B2)) {m : Mono R} {n : Mono K}
    (h : SRel F G B1 (.mono m) (.mono n)) {l : List (Mono R)} {l' : List (Mono K)}
    (h' : LRel F G B2 l l') :
    Go.Rel (fun a b => SRel F G (B1 + B2) (.poly a) (.poly b)) (mmPlusEntry m l) (mmPlusEntry n l') := by
  have hl : LRel F G (B1 + B2) (m :: l) (n :: l') := (h.1.single h.2).append h'
  exact Go.Rel.bind (simplify_rel hf hl) (fun _ _ _ => Go.rel_pure hl)

theorem mmPlus_rel (hf : Fit F G (B1 + B2)) {l : List (List (Mono R))} {l' : List (List (Mono K))}
    (h : MatRel F G B1 (.m l) (.m l')) {c : Expr R} {d : Expr K} (h' : ERel F G B2 c d) :
    Go.Rel (ERel F G (B1 + B2)) (mmPlus l c) (mmPlus l' d) := by
  refine Go.Rel.bind h.check (fun _ _ _ => Go.Rel.bind h'.check (fun _ _ _ =>
    Go.Rel.bind (rowDims_rel h) ?_))
  rintro da _ rfl
  refine Go.Rel.bind h'.dims ?_
  rintro dc _ rfl
  refine Go.Rel.bind (Go.rel_unit _) (fun _ _ _ => ?_)
  match c, d, h' with
  | .s _, .s _, h' =>
    exact Go.Rel.bind (Go.rel_mapM₂ h (fun _ _ h => mmPlusEntry_rel hf h (SRel.toPoly hf.one h')))
      (fun _ _ h => Go.rel_pure (a := Expr.m (.p _)) (b := Expr.m (.p _)) h)
  | .v _, .v _, _ => exact Go.rel_throw _
  | .m (.k _), .m (.k _), h' => exact Go.rel_throw _
  | .m (.v _), .m (.v _), h' => exact Go.rel_throw _
  | .m (.m _), .m (.m _), h' => exact Go.rel_throw _
  | .m (.p _), .m (.p _), h' =>
    refine Go.Rel.bind (A := List.Forall₂ (List.Forall₂ (fun a b =>
      SRel F G (B1 + B2) (.poly a) (.poly b)))) (Go.rel_mapM (forall₂_zipIdx h 0) ?_)
      (fun _ _ h => Go.rel_pure (a := Expr.m (.p _)) (b := Expr.m (.p _)) h)
    rintro ⟨x, k⟩ ⟨y, _⟩ ⟨h, rfl⟩
    refine Go.rel_mapM (forall₂_zipIdx h 0) ?_
    rintro ⟨x, k⟩ ⟨y, _⟩ ⟨h, rfl⟩
    exact Go.Rel.bind (goGet2_rel h' _ _) (fun p q hpq => mmPlusEntry_rel hf h hpq)

theorem pmPlus_rel (hf : Fit F G (B1 + B2)) {l : List (List (Poly R))} {l' : List (List (Poly K))}
    (h : MatRel F G B1 (.p l) (.p l')) {c : Expr R} {d : Expr K} (h' : ERel F G B2 c d) :
    Go.Rel (ERel F G (B1 + B2)) (pmPlus l c) (pmPlus l' d) := by
  refine Go.Rel.bind h.check (fun _ _ _ => Go.Rel.bind h'.check (fun _ _ _ =>
    Go.Rel.bind (rowDims_rel h) ?_))
  rintro da _ rfl
  refine Go.Rel.bind h'.dims ?_
  rintro dc _ rfl
  refine Go.Rel.bind (Go.rel_unit _) (fun _ _ _ => ?_)
  match c, d, h' with
  | .s (.k x), .s (.k q), h' =>
    exact Go.Rel.bind (Go.rel_mapM₂ h (fun _ _ h => lplus_rel hf h (a := .k x) (b := .k q) h'))
      (fun _ _ h => Go.Rel.bind (concretizeM_rel hf.one h) (fun _ _ h => h.asSimplified hf))
  | .s (.var v), .s (.var w), h' => exact Go.rel_throw _
  | .s (.mono x), .s (.mono y), h' =>
    exact Go.Rel.bind (Go.rel_mapM₂ h (fun _ _ h =>
      lplus_rel hf h (a := .poly x.toPoly) (b := .poly y.toPoly) (h'.1.single h'.2)))
      (fun _ _ h => Go.Rel.bind (concretizeM_rel hf.one h) (fun _ _ h =>
        Go.Rel.bind (h.asSimplified hf) (fun _ _ h => h.asSimplified hf)))
  | .s (.poly x), .s (.poly y), h' =>
    exact Go.Rel.bind (Go.rel_mapM₂ h (fun _ _ h => lplus_rel hf h (a := .poly x) (b := .poly y) h'))
      (fun _ _ h => Go.Rel.bind (concretizeM_rel hf.one h) (fun _ _ h => h.asSimplified hf))
  | .v _, .v _, _ => exact Go.rel_throw _
  | .m (.k r), .m (.k r'), h' =>
    refine Go.Rel.bind (A := List.Forall₂ (List.Forall₂ (SRel F G (B1 + B2))))
      (Go.rel_mapM (forall₂_zipIdx h 0) ?_)
      (fun _ _ h => Go.Rel.bind (concretizeM_rel hf.one h) (fun _ _ h => h.asSimplified hf))
    rintro ⟨x, k⟩ ⟨y, _⟩ ⟨h, rfl⟩
    refine Go.rel_mapM (forall₂_zipIdx h 0) ?_
    rintro ⟨x, k⟩ ⟨y, _⟩ ⟨h, rfl⟩
    exact Go.Rel.bind (MatRel.at (a := .k r) (b := .k r') h' _ _) (fun p q hpq => lplus_rel hf h hpq)
  | .m (.v _), .m (.v _), h' => exact Go.rel_throw _
  | .m (.m _), .m (.m _), h' => exact Go.rel_throw _
  | .m (.p _), .m (.p _), h' =>
    refine Go.Rel.bind (A := List.Forall₂ (List.Forall₂ (SRel F G (B1 + B2))))
      (Go.rel_mapM (forall₂_zipIdx h 0) ?_)
      (fun _ _ h => Go.Rel.bind (concretizeM_rel hf.one h) (fun _ _ h => h.asSimplified hf))
    rintro ⟨x, k⟩ ⟨y, _⟩ ⟨h, rfl⟩
    refine Go.rel_mapM (forall₂_zipIdx h 0) ?_
    rintro ⟨x, k⟩ ⟨y, _⟩ ⟨h, rfl⟩
    exact Go.Rel.bind (goGet2_rel h' _ _) (fun p q hpq =>
      lplus_rel hf h (a := .poly p) (b := .poly q) hpq)

theorem MatRel.plus (hf : Fit F (𝒢.g i) (B1 + B2)) {a : Mat R} {b : Mat K}
    (h : MatRel F (𝒢.g i) B1 a b) (hB1 : 0 ≤ B1) {c : Expr R} {d : Expr K}
    (h' : ERel F (𝒢.g i) B2 c d) :
    Go.Rel (ERel F (𝒢.g i) (B1 + B2)) (a.plus c) (b.plus d) := by
  match a, b, h with
  | .k _, .k _, h => exact kmPlus_rel hf h hB1 h'
  | .v _, .v _, h => exact vmPlus_rel hf h hB1 h'
  | .m _, .m _, h => exact mmPlus_rel hf h h'
  | .p _, .p _, h => exact pmPlus_rel hf h h'

theorem plusExpr_rel (hf : Fit F G (B1 + B2)) {p : Poly R} {q : Poly K}
    (h : SRel F G B1 (.poly p) (.poly q)) {c : Expr R} {d : Expr K} (h' : ERel F G B2 c d) :
    Go.Rel (ERel F G (B1 + B2)) (p.plusExpr c) (q.plusExpr d) := by
  have fin : ∀ x y, ERel F G (B1 + B2) x y →
      Go.Rel (ERel F G (B1 + B2)) x.asSimplified y.asSimplified := fun _ _ h => h.asSimplified hf
  match c, d, h' with
  | .s _, .s _, h' =>
    exact Go.Rel.bind (lplus_rel hf h h') (fun _ _ h => Go.rel_pure (a := Expr.s _) (b := Expr.s _) h)
  | .v c, .v d, h' =>
    have h' : VecRel F G B2 c d := h'
    refine Go.Rel.bind (lcheck_rel h.1) (fun _ _ _ => Go.Rel.bind h'.check (fun _ _ _ =>
      Go.Rel.bind h'.len ?_))
    rintro n _ rfl
    refine Go.rel_ite Iff.rfl (fun _ => ?_) (fun _ => ?_)
    · exact Go.Rel.bind (h'.atVec 0) (fun _ _ h' => Go.Rel.bind (lplus_rel hf h h')
        (fun x y h => fin (.s x) (.s y) h))
    · exact Go.Rel.bind (Go.rel_mapM_same _ (fun k => Go.Rel.bind (h'.atVec k)
        (fun _ _ h' => lplus_rel hf h h'))) (fun _ _ h => Go.Rel.bind (concretizeV_rel hf.one h) fin)
  | .m c, .m d, h' =>
    have h' : MatRel F G B2 c d := h'
    refine Go.Rel.bind (lcheck_rel h.1) (fun _ _ _ => Go.Rel.bind h'.check (fun _ _ _ =>
      Go.Rel.bind h'.dims ?_))
    rintro n _ rfl
    refine Go.rel_ite Iff.rfl (fun _ => ?_) (fun _ => ?_)
    · exact Go.Rel.bind (h'.at 0 0) (fun _ _ h' => Go.Rel.bind (lplus_rel hf h h')
        (fun x y h => fin (.s x) (.s y) h))
    · exact Go.Rel.bind (Go.rel_mapM_same _ (fun k => Go.rel_mapM_same _ (fun l =>
        Go.Rel.bind (h'.at k l) (fun _ _ h' => lplus_rel hf h h'))))
        (fun _ _ h => Go.Rel.bind (concretizeM_rel hf.one h) fin)

/-- `Plus` on floats does what it does on exact numbers. -/
theorem ERel.plus (hf : Fit F (𝒢.g i) (B1 + B2)) (hB1 : 0 ≤ B1) (hB2 : 0 ≤ B2) {a c : Expr R}
    {b d : Expr K} (h : ERel F (𝒢.g i) B1 a b) (h' : ERel F (𝒢.g i) B2 c d) :
    Go.Rel (ERel F (𝒢.g i) (B1 + B2)) (a.plus c) (b.plus d) := by
  match a, b, h, c, d, h' with
  | .s a, .s b, h, .s c, .s d, h' =>
    have e := Go.Rel.bind (SRel.plus hf h h')
      (fun x y h => Go.rel_pure (A := ERel F (𝒢.g i) (B1 + B2)) (a := Expr.s x) (b := Expr.s y) h)
    match a, b, h with
    | .k _, .k _, _ => exact e
    | .var _, .var _, _ => exact e
    | .mono _, .mono _, _ => exact e
    | .poly _, .poly _, _ => exact e
  | .s (.k _), .s (.k _), h, .v _, .v _, h' =>
    rw [add_comm B1 B2] at hf ⊢
    exact Go.Rel.bind (VecRel.check h') (fun _ _ _ =>
      VecRel.plus hf h' (c := .s (.k _)) (d := .s (.k _)) h)
  | .s (.k _), .s (.k _), h, .m _, .m _, h' =>
    rw [add_comm B1 B2] at hf ⊢
    exact Go.Rel.bind (MatRel.check h') (fun _ _ _ =>
      MatRel.plus hf h' hB2 (c := .s (.k _)) (d := .s (.k _)) h)
  | .s (.var _), .s (.var _), h, .v _, .v _, h' =>
    rw [add_comm B1 B2] at hf ⊢
    exact Go.Rel.bind h.1.check (fun _ _ _ => Go.Rel.bind
      (VecRel.plus hf h' (c := .s (.var _)) (d := .s (.var _)) h) (fun _ _ h => h.asSimplified hf))
  | .s (.var _), .s (.var _), h, .m _, .m _, h' =>
    exact Go.Rel.bind h.1.check (fun _ _ _ => Go.rel_throw _)
  | .s (.mono _), .s (.mono _), h, .v c, .v d, h' =>
    refine Go.Rel.bind h.1.check (fun _ _ _ => Go.Rel.bind (ERel.check h') (fun _ _ _ =>
      Go.Rel.bind (ERel.dims h') ?_))
    rintro n _ rfl
    exact Go.Rel.bind (Go.rel_unit _) (fun _ _ _ => Go.rel_throw _)
  | .s (.mono _), .s (.mono _), h, .m c, .m d, h' =>
    refine Go.Rel.bind h.1.check (fun _ _ _ => Go.Rel.bind (ERel.check h') (fun _ _ _ =>
      Go.Rel.bind (ERel.dims h') ?_))
    rintro n _ rfl
    exact Go.Rel.bind (Go.rel_unit _) (fun _ _ _ => Go.rel_throw _)
  | .s (.poly _), .s (.poly _), h, .v c, .v d, h' => exact plusExpr_rel hf h h'
  | .s (.poly _), .s (.poly _), h, .m c, .m d, h' => exact plusExpr_rel hf h h'
  | .v _, .v _, h, _, _, h' => exact VecRel.plus hf h h'
  | .m _, .m _, h, _, _, h' => exact MatRel.plus hf h hB1 h'

/-! ## Multiply -/

/-- A loop whose state grows by `B` at each step. -/
theorem rel_foldlM_acc {α β γ δ : Type} {A : α → β → Prop} {f : γ → α → Go γ} {g : δ → β → Go δ}
    (P : K → γ → δ → Prop) {N : K} (hB : 0 ≤ B)
    (step : ∀ C a b c d, A a b → 0 ≤ C → C + B ≤ N → P C c d → Go.Rel (P (C + B)) (f c a) (g d b)) :
    ∀ {l : List α} {l' : List β}, List.Forall₂ A l l' → ∀ C c d, 0 ≤ C → C + l'.length * B ≤ N →
      P C c d → Go.Rel (P (C + l'.length * B)) (l.foldlM f c) (l'.foldlM g d) := by
  intro l l' h
  induction h with
  | nil =>
    intro C c d _ _ hP
    simpa using Go.rel_pure hP
  | @cons a b l l' hx _ ih =>
    intro C c d hC hN hP
    have e : C + ((b :: l').length : K) * B = (C + B) + l'.length * B := by
      rw [List.length_cons, Nat.cast_succ]; ring
    rw [e] at hN ⊢
    have h0 : 0 ≤ (l'.length : K) * B := mul_nonneg (Nat.cast_nonneg _) hB
    rw [List.foldlM_cons, List.foldlM_cons]
    exact Go.Rel.bind (step C a b c d hx hC (by linarith) hP)
      (fun c d h => ih _ c d (by linarith) hN h)

theorem forall₂_and {α β : Type} {A : α → β → Prop} {Q : β → Prop} {l : List α} {l' : List β}
    (h : List.Forall₂ A l l') (hQ : ∀ b ∈ l', Q b) : List.Forall₂ (fun a b => A a b ∧ Q b) l l' := by
  induction h with
  | nil => exact List.Forall₂.nil
  | cons hx _ ih =>
    exact List.Forall₂.cons ⟨hx, hQ _ List.mem_cons_self⟩ (ih (fun b hb => hQ b (List.mem_cons_of_mem _ hb)))

theorem rowDims_le {α β : Type} {A : α → β → Prop} {l : List (List α)} {l' : List (List β)} {N : ℕ}
    (h : List.Forall₂ (List.Forall₂ A) l l') (hN : ∀ r ∈ l', r.length ≤ N) :
    Go.Rel (fun d d' => d = d' ∧ d'.2 ≤ N) (rowDims l) (rowDims l') := by
  cases h with
  | nil => exact Go.rel_throw _
  | cons hx h => exact Go.rel_pure ⟨by rw [hx.length_eq, h.length_eq], hN _ List.mem_cons_self⟩

/-- No row is longer than `N`. -/
def Mat.RowsLE (N : ℕ) : Mat K → Prop
  | .k l => ∀ r ∈ l, r.length ≤ N
  | .v l => ∀ r ∈ l, r.length ≤ N
  | .m l => ∀ r ∈ l, r.length ≤ N
  | .p l => ∀ r ∈ l, r.length ≤ N

theorem MatRel.dims_le {N : ℕ} {a : Mat R} {b : Mat K} (h : MatRel F G B a b) (hN : b.RowsLE N) :
    Go.Rel (fun d d' => d = d' ∧ d'.2 ≤ N) a.dims b.dims := by
  refine Go.Rel.bind h.check (fun _ _ _ => ?_)
  match a, b, h, hN with
  | .k _, .k _, h, hN => exact rowDims_le h hN
  | .v _, .v _, h, hN => exact rowDims_le h hN
  | .m _, .m _, h, hN => exact rowDims_le h hN
  | .p _, .p _, h, hN => exact rowDims_le h hN

theorem vecMulTemplate_rel (hf : Fit F (𝒢.g (i + j)) (B1 * B2)) {a : Vec R} {b : Vec K}
    (h : VecRel F (𝒢.g i) B1 a b) {c : Expr R} {d : Expr K} (h' : ERel F (𝒢.g j) B2 c d) :
    Go.Rel (ERel F (𝒢.g (i + j)) (B1 * B2)) (vecMulTemplate a c) (vecMulTemplate b d) := by
  match c, d, h' with
  | .s _, .s _, h' =>
    exact Go.Rel.bind (Go.rel_mapM h.entries (fun _ _ h => SRel.mul hf h h'))
      (fun _ _ h => concretizeV_rel hf.one h)
  | .v _, .v _, h' => exact Go.rel_throw _
  | .m _, .m _, h' => exact Go.rel_throw _

theorem VecRel.mulScalar (hf : Fit F (𝒢.g (i + j)) (B1 * B2)) {a : Vec R} {b : Vec K}
    (h : VecRel F (𝒢.g i) B1 a b) {c : Scalar R} {d : Scalar K} (h' : SRel F (𝒢.g j) B2 c d) :
    Go.Rel (ERel F (𝒢.g (i + j)) (B1 * B2)) (a.mulScalar c) (b.mulScalar d) := by
  refine Go.Rel.bind h.check (fun _ _ _ => Go.Rel.bind h'.check (fun _ _ _ =>
    Go.Rel.bind h.dims ?_))
  rintro da _ rfl
  refine Go.Rel.bind (Go.rel_unit _) (fun _ _ _ => ?_)
  have fin : ∀ x y, ERel F (𝒢.g (i + j)) (B1 * B2) x y →
      Go.Rel (ERel F (𝒢.g (i + j)) (B1 * B2)) x.asSimplified y.asSimplified :=
    fun _ _ h => h.asSimplified hf
  have main := Go.Rel.bind (vecMulTemplate_rel hf h (c := .s c) (d := .s d) h') fin
  have bad : Go.Rel (ERel F (𝒢.g (i + j)) (B1 * B2)) (throw Err.unsupported) (throw Err.unsupported) :=
    Go.rel_throw _
  match a, b, h, c, d, h' with
  | .k _, .k _, _, _, _, _ => exact main
  | .v _, .v _, _, _, _, _ => exact main
  | .m _, .m _, _, _, _, _ => exact main
  | .p _, .p _, _, .k _, .k _, _ => exact main
  | .p _, .p _, _, .var _, .var _, _ => exact bad
  | .p _, .p _, _, .mono _, .mono _, _ => exact bad
  | .p _, .p _, _, .poly _, .poly _, _ => exact main

theorem VecRel.mul (hf : Fit F (𝒢.g (i + j)) (B1 * B2)) {a : Vec R} {b : Vec K}
    (h : VecRel F (𝒢.g i) B1 a b) {c : Expr R} {d : Expr K} (h' : ERel F (𝒢.g j) B2 c d) :
    Go.Rel (ERel F (𝒢.g (i + j)) (B1 * B2)) (a.mul c) (b.mul d) := by
  have fin : ∀ x y, ERel F (𝒢.g (i + j)) (B1 * B2) x y →
      Go.Rel (ERel F (𝒢.g (i + j)) (B1 * B2)) x.asSimplified y.asSimplified :=
    fun _ _ h => h.asSimplified hf
  have bad : Go.Rel (ERel F (𝒢.g (i + j)) (B1 * B2)) (throw Err.unsupported) (throw Err.unsupported) :=
    Go.rel_throw _
  match c, d, h' with
  | .s _, .s _, h' => exact h.mulScalar hf h'
  | .v c, .v d, h' =>
    have h' : VecRel F (𝒢.g j) B2 c d := h'
    refine Go.Rel.bind h.check (fun _ _ _ => Go.Rel.bind h'.check (fun _ _ _ =>
      Go.Rel.bind h.dims ?_))
    rintro da _ rfl
    refine Go.Rel.bind h'.dims ?_
    rintro dc _ rfl
    refine Go.Rel.bind (Go.rel_unit _) (fun _ _ _ => ?_)
    have ms : ∀ x y, SRel F (𝒢.g j) B2 x y → Go.Rel (ERel F (𝒢.g (i + j)) (B1 * B2))
        (a.mulScalar x >>= Expr.asSimplified) (b.mulScalar y >>= Expr.asSimplified) :=
      fun x y hxy => Go.Rel.bind (h.mulScalar hf hxy) fin
    match a, b, h, c, d, h' with
    | .k _, .k _, _, .k _, .k _, h' => exact Go.Rel.bind (goGet_rel h' 0) (fun x y h => ms (.k x) (.k y) h)
    | .k _, .k _, _, .v _, .v _, h' =>
      exact Go.Rel.bind (goGet_rel h' 0) (fun x y h => ms (.var x) (.var y) h)
    | .k _, .k _, _, .m _, .m _, _ => exact bad
    | .k _, .k _, _, .p _, .p _, _ => exact bad
    | .v _, .v _, _, c, d, h' => exact Go.Rel.bind (h'.atVec 0) ms
    | .m _, .m _, _, .k _, .k _, _ => exact bad
    | .m _, .m _, _, .v _, .v _, _ => exact bad
    | .m _, .m _, _, .m _, .m _, _ => exact bad
    | .m _, .m _, _, .p _, .p _, _ => exact bad
    | .p _, .p _, _, .k _, .k _, _ => exact bad
    | .p _, .p _, _, .v _, .v _, _ => exact bad
    | .p _, .p _, _, .m _, .m _, _ => exact bad
    | .p _, .p _, _, .p _, .p _, h' =>
      exact Go.Rel.bind (goGet_rel h' 0) (fun x y h => ms (.poly x) (.poly y) h)
  | .m c, .m d, h' =>
    have h' : MatRel F (𝒢.g j) B2 c d := h'
    refine Go.Rel.bind h.check (fun _ _ _ => Go.Rel.bind h'.check (fun _ _ _ =>
      Go.Rel.bind h.dims ?_))
    rintro da _ rfl
    refine Go.Rel.bind h'.dims ?_
    rintro dc _ rfl
    exact Go.Rel.bind (Go.rel_unit _) (fun _ _ _ => Go.rel_throw _)

/-- Rewriting a bound. -/
theorem Go.Rel.erel {x : Go (Expr R)} {y : Go (Expr K)} (h : Go.Rel (ERel F G B1) x y) (hB : B1 ≤ B2) :
    Go.Rel (ERel F G B2) x y := Go.Rel.mono h (fun _ _ h => h.mono hB)

theorem Go.Rel.srel {x : Go (Scalar R)} {y : Go (Scalar K)} (h : Go.Rel (SRel F G B1) x y) (hB : B1 ≤ B2) :
    Go.Rel (SRel F G B2) x y := Go.Rel.mono h (fun _ _ h => h.mono hB)

theorem cast_le_mul {n N : ℕ} (h : n ≤ N) (hB : 0 ≤ B) : (n : K) * B ≤ N * B :=
  mul_le_mul_of_nonneg_right (Nat.cast_le.2 h) hB

/-- A sum of at most `N` products. -/
theorem sumProd_rel {α β : Type} {A : α → β → Prop} {N : ℕ} (hB : 0 ≤ B) (hf : Fit F G (N * B))
    {f : α → Go (Scalar R)} {g : β → Go (Scalar K)} {l : List α} {l' : List β}
    (h : List.Forall₂ A l l') (hn : l'.length ≤ N)
    (hfg : ∀ a b, A a b → Go.Rel (SRel F G B) (f a) (g b)) :
    Go.Rel (SRel F G (N * B)) (l.foldlM (fun acc a => do acc.plus (← f a)) (Scalar.k GoNum.zero))
      (l'.foldlM (fun acc a => do acc.plus (← g a)) (Scalar.k GoNum.zero)) := by
  have hle := cast_le_mul hn hB
  have := rel_foldlM_acc (A := A) (SRel F G) (N := N * B) hB
    (f := fun acc a => do acc.plus (← f a)) (g := fun acc a => do acc.plus (← g a))
    (fun C a b c d hab _ hCN hcd => Go.Rel.bind (hfg a b hab)
      (fun x y hxy => SRel.plus (hf.mono hCN) hcd hxy)) h 0 (.k GoNum.zero) (.k GoNum.zero) le_rfl
    (by rw [zero_add]; exact hle) ⟨crel_zero, by rw [gn_zero, abs_zero]⟩
  rw [zero_add] at this
  exact this.srel hle

/-- Sums of products as the loops write them: a read, a product, a sum. -/
theorem sumProd_rel' {α β γ δ : Type} {A : α → β → Prop} {P : γ → δ → Prop} {N : ℕ} (hB : 0 ≤ B)
    (hf : Fit F G (N * B)) {f : α → Go γ} {g : β → Go δ} {f' : α → γ → Go (Scalar R)}
    {g' : β → δ → Go (Scalar K)} {l : List α} {l' : List β}
    (h : List.Forall₂ A l l') (hn : l'.length ≤ N)
    (hfg : ∀ a b, A a b → Go.Rel P (f a) (g b))
    (hfg' : ∀ a b x y, A a b → P x y → Go.Rel (SRel F G B) (f' a x) (g' b y)) :
    Go.Rel (SRel F G (N * B))
      (l.foldlM (fun acc a => do let x ← f a; acc.plus (← f' a x)) (Scalar.k GoNum.zero))
      (l'.foldlM (fun acc a => do let x ← g a; acc.plus (← g' a x)) (Scalar.k GoNum.zero)) := by
  have hle := cast_le_mul hn hB
  have := rel_foldlM_acc (A := A) (SRel F G) (N := N * B) hB
    (f := fun acc a => do let x ← f a; acc.plus (← f' a x))
    (g := fun acc a => do let x ← g a; acc.plus (← g' a x))
    (fun C a b c d hab _ hCN hcd => Go.Rel.bind (hfg a b hab) (fun x y hxy =>
      Go.Rel.bind (hfg' a b x y hab hxy)
      (fun x y hxy => SRel.plus (hf.mono hCN) hcd hxy))) h 0 (.k GoNum.zero) (.k GoNum.zero) le_rfl
    (by rw [zero_add]; exact hle) ⟨crel_zero, by rw [gn_zero, abs_zero]⟩
  rw [zero_add] at this
  exact this.srel hle

variable {N : ℕ}

theorem mulEntry_rel (hB1 : 0 ≤ B1) (hB2 : 0 ≤ B2) (hN : 1 ≤ N)
    (hf : Fit F (𝒢.g (i + j)) (N * (B1 * B2))) {a c : Mat R} {b d : Mat K}
    (h : MatRel F (𝒢.g i) B1 a b) (h' : MatRel F (𝒢.g j) B2 c d) {n : ℕ} (hn : n ≤ N) (k l : ℕ) :
    Go.Rel (SRel F (𝒢.g (i + j)) (N * (B1 * B2))) (mulEntry a c n k l) (mulEntry b d n k l) := by
  have hB : 0 ≤ B1 * B2 := mul_nonneg hB1 hB2
  have hf1 : Fit F (𝒢.g (i + j)) (B1 * B2) := hf.mono (by simpa using cast_le_mul (B := B1 * B2) hN hB)
  refine Go.Rel.bind ?_ (fun _ _ h => SRel.asSimplified hf h)
  have hle := cast_le_mul (B := B1 * B2) hn hB
  have := rel_foldlM_acc (A := fun (x y : ℕ) => x = y) (SRel F (𝒢.g (i + j))) (N := N * (B1 * B2)) hB
    (f := fun acc (m : ℕ) => do let x ← a.at k m; let y ← c.at m l; acc.plus (← x.mul y))
    (g := fun acc (m : ℕ) => do let x ← b.at k m; let y ← d.at m l; acc.plus (← x.mul y))
    (by
      rintro C m _ p q rfl _ hCN hpq
      exact Go.Rel.bind (h.at _ _) (fun _ _ h => Go.Rel.bind (h'.at _ _) (fun _ _ h' =>
        Go.Rel.bind (SRel.mul hf1 h h') (fun x y hxy => SRel.plus (hf.mono hCN) hpq hxy))))
    (List.forall₂_same.2 (fun x _ => rfl) : List.Forall₂ _ (List.range n) (List.range n))
    0 (.k GoNum.zero) (.k GoNum.zero) le_rfl
    (by rw [zero_add, List.length_range]; exact hle) ⟨crel_zero, by rw [gn_zero, abs_zero]⟩
  rw [zero_add, List.length_range] at this
  exact this.srel hle

theorem matMulTemplate_rel (hB1 : 0 ≤ B1) (hB2 : 0 ≤ B2) (hN : 1 ≤ N)
    (hf : Fit F (𝒢.g (i + j)) (N * (B1 * B2))) {a c : Mat R} {b d : Mat K}
    (h : MatRel F (𝒢.g i) B1 a b) (hr : b.RowsLE N) (h' : MatRel F (𝒢.g j) B2 c d) :
    Go.Rel (ERel F (𝒢.g (i + j)) (N * (B1 * B2))) (matMulTemplate a c) (matMulTemplate b d) := by
  refine Go.Rel.bind h.check (fun _ _ _ => Go.Rel.bind h'.check (fun _ _ _ =>
    Go.Rel.bind (h.dims_le hr) ?_))
  rintro da _ ⟨rfl, hda⟩
  refine Go.Rel.bind h'.dims ?_
  rintro dc _ rfl
  refine Go.rel_ite Iff.rfl (fun _ => Go.rel_throw _) (fun _ => ?_)
  exact Go.Rel.bind (Go.rel_mapM_same _ (fun k => Go.rel_mapM_same _ (fun l =>
    mulEntry_rel hB1 hB2 hN hf h h' hda k l))) (fun _ _ h => concretizeM_rel hf.one h)

theorem VRel.mulVec (hf : Fit F (𝒢.g (i + j)) (B1 * B2)) {v : Var R} {w : Var K}
    (hv : SRel F (𝒢.g j) B2 (.var v) (.var w)) {a : Vec R} {b : Vec K} (h : VecRel F (𝒢.g i) B1 a b) :
    Go.Rel (ERel F (𝒢.g (i + j)) (B1 * B2)) (v.mulVec a) (w.mulVec b) := by
  refine Go.Rel.bind hv.1.check (fun _ _ _ => Go.Rel.bind h.check (fun _ _ _ =>
    Go.Rel.bind h.dims ?_))
  rintro da _ rfl
  exact Go.Rel.bind (Go.rel_unit _) (fun _ _ _ => Go.Rel.bind
    (vecMulTemplate_rel hf h (c := .s (.var v)) (d := .s (.var w)) hv) (fun _ _ h => h.asSimplified hf))

theorem VRel.mulVecDense (hf : Fit F (𝒢.g (i + j)) (B1 * B2)) {v : Var R} {w : Var K}
    (hv : SRel F (𝒢.g j) B2 (.var v) (.var w)) {l : List R} {l' : List K}
    (h : VecRel F (𝒢.g i) B1 (.k l) (.k l')) :
    Go.Rel (ERel F (𝒢.g (i + j)) (B1 * B2)) (v.mulVecDense l) (w.mulVecDense l') :=
  Go.Rel.bind (VRel.mulVec hf hv h) (fun _ _ h => Go.Rel.bind (h.asSimplified hf)
    (fun _ _ h => h.asSimplified hf))

/-- A matrix times a scalar: no sums. -/
theorem MatRel.mulScalar (hf : Fit F (𝒢.g (i + j)) (B1 * B2)) {a : Mat R} {b : Mat K}
    (h : MatRel F (𝒢.g i) B1 a b) {c : Scalar R} {d : Scalar K} (h' : SRel F (𝒢.g j) B2 c d) :
    Go.Rel (ERel F (𝒢.g (i + j)) (B1 * B2)) (a.mul (.s c)) (b.mul (.s d)) := by
  match a, b, h with
  | .k l, .k l', h =>
    refine Go.Rel.bind h'.check (fun _ _ _ => Go.Rel.bind (rowDims_rel h) ?_)
    rintro da _ rfl
    refine Go.Rel.bind (ERel.dims (a := .s c) (b := .s d) h') ?_
    rintro dc _ rfl
    refine Go.Rel.bind (Go.rel_unit _) (fun _ _ _ => ?_)
    match c, d, h' with
    | .k _, .k _, h' =>
      refine Go.Rel.bind (kToDense_rel h) (fun _ _ h =>
        Go.rel_pure (a := Expr.m (.k _)) (b := Expr.m (.k _)) (forall₂_map₂ h (fun _ _ h => ?_)))
      have := CRel.mul hf.swap h'.1 h.1 h'.2 h.2
      rw [Nat.add_comm j i] at this
      refine ⟨this, ?_⟩
      have := abs_mul_le_mul h'.2 h.2
      rwa [mul_comm B2 B1] at this
    | .var _, .var _, _ => exact Go.rel_throw _
    | .mono _, .mono _, _ => exact Go.rel_throw _
    | .poly p, .poly q, h' =>
      refine Go.Rel.bind (Go.rel_mapM_same _ (fun k => Go.rel_mapM_same _ (fun l =>
        Go.Rel.bind (goGet2_rel h _ _) (fun x y hxy => ?_))))
        (fun _ _ h => Go.Rel.bind (concretizeM_rel hf.one h) (fun _ _ h => h.asSimplified hf))
      exact lmul_rel hf ((mrel_const hxy.1).single hxy.2) (a := .poly p) (b := .poly q) h'
  | .v l, .v l', h =>
    refine Go.Rel.bind (MatRel.check (a := .v l) (b := .v l') h) (fun _ _ _ =>
      Go.Rel.bind h'.check (fun _ _ _ => Go.Rel.bind (rowDims_rel h) ?_))
    rintro da _ rfl
    refine Go.Rel.bind (ERel.dims (a := .s c) (b := .s d) h') ?_
    rintro dc _ rfl
    refine Go.Rel.bind (Go.rel_unit _) (fun _ _ _ => ?_)
    match c, d, h' with
    | .k p, .k q, h' =>
      refine Go.Rel.bind (A := List.Forall₂ (List.Forall₂ (fun a b =>
        SRel F (𝒢.g (i + j)) (B1 * B2) (.mono a) (.mono b)))) (Go.rel_mapM₂ h (fun x y hxy =>
          Go.Rel.bind (hxy.1.mul hf hxy.2 (a := .k p) (b := .k q) h') (fun s t hst => ?_)))
        (fun x y h => ERel.asSimplified hf (a := .m (.m x)) (b := .m (.m y)) h)
      match s, t, hst with
      | .k _, .k _, _ => exact Go.rel_throw _
      | .var _, .var _, _ => exact Go.rel_throw _
      | .mono _, .mono _, h => exact Go.rel_pure h
      | .poly _, .poly _, _ => exact Go.rel_throw _
    | .var _, .var _, _ => exact Go.rel_throw _
    | .mono _, .mono _, _ => exact Go.rel_throw _
    | .poly _, .poly _, _ => exact Go.rel_throw _
  | .m l, .m l', h =>
    refine Go.Rel.bind (MatRel.check (a := .m l) (b := .m l') h) (fun _ _ _ =>
      Go.Rel.bind h'.check (fun _ _ _ => Go.Rel.bind (rowDims_rel h) ?_))
    rintro da _ rfl
    refine Go.Rel.bind (ERel.dims (a := .s c) (b := .s d) h') ?_
    rintro dc _ rfl
    refine Go.Rel.bind (Go.rel_unit _) (fun _ _ _ => ?_)
    match c, d, h' with
    | .k p, .k q, h' =>
      exact Go.rel_pure (a := Expr.m (.m _)) (b := Expr.m (.m _)) (forall₂_map₂ h (fun _ _ h =>
        ⟨⟨CRel.mul hf h.1.1 h'.1 h.2 h'.2, h.1.2⟩, abs_mul_le_mul h.2 h'.2⟩))
    | .var _, .var _, _ => exact Go.rel_throw _
    | .mono _, .mono _, _ => exact Go.rel_throw _
    | .poly _, .poly _, _ => exact Go.rel_throw _
  | .p l, .p l', h =>
    refine Go.Rel.bind (MatRel.check (a := .p l) (b := .p l') h) (fun _ _ _ =>
      Go.Rel.bind h'.check (fun _ _ _ => Go.Rel.bind (rowDims_rel h) ?_))
    rintro da _ rfl
    refine Go.Rel.bind (ERel.dims (a := .s c) (b := .s d) h') ?_
    rintro dc _ rfl
    refine Go.Rel.bind (Go.rel_unit _) (fun _ _ _ => ?_)
    match c, d, h' with
    | .k p, .k q, h' =>
      exact Go.Rel.bind (Go.rel_mapM₂ h (fun _ _ h => lmul_rel hf h (a := .k p) (b := .k q) h'))
        (fun _ _ h => Go.Rel.bind (concretizeM_rel hf.one h) (fun _ _ h => h.asSimplified hf))
    | .var _, .var _, _ => exact Go.rel_throw _
    | .mono _, .mono _, _ => exact Go.rel_throw _
    | .poly _, .poly _, _ => exact Go.rel_throw _

/-- The vector factor of a product has at most `N` entries. -/
def Expr.LenLE (N : ℕ) : Expr K → Prop
  | .v (.k l) => l.length ≤ N
  | .v (.v l) => l.length ≤ N
  | _ => True

theorem kmMul_rel (hB1 : 0 ≤ B1) (hB2 : 0 ≤ B2) (hN : 1 ≤ N)
    (hf : Fit F (𝒢.g (i + j)) (N * (B1 * B2))) {l : List (List R)} {l' : List (List K)}
    (h : MatRel F (𝒢.g i) B1 (.k l) (.k l')) (hr : Mat.RowsLE N (.k l')) {c : Expr R} {d : Expr K}
    (h' : ERel F (𝒢.g j) B2 c d) (hd : d.LenLE N) :
    Go.Rel (ERel F (𝒢.g (i + j)) (N * (B1 * B2))) (kmMul l c) (kmMul l' d) := by
  have hB : 0 ≤ B1 * B2 := mul_nonneg hB1 hB2
  have hle : B1 * B2 ≤ N * (B1 * B2) := by simpa using cast_le_mul (B := B1 * B2) hN hB
  have hf1 : Fit F (𝒢.g (i + j)) (B1 * B2) := hf.mono hle
  match c, d, h' with
  | .s c, .s d, h' =>
    exact (MatRel.mulScalar hf1 (a := .k l) (b := .k l') h h').erel hle
  | .v c, .v d, h' =>
    refine Go.Rel.bind (ERel.check h') (fun _ _ _ => Go.Rel.bind (rowDims_le h hr) ?_)
    rintro da _ ⟨rfl, hda⟩
    refine Go.Rel.bind (ERel.dims h') ?_
    rintro dc _ rfl
    refine Go.Rel.bind (Go.rel_unit _) (fun _ _ _ => ?_)
    match c, d, h', hd with
    | .k _, .k _, _, _ => exact Go.rel_throw _
    | .m _, .m _, _, _ => exact Go.rel_throw _
    | .p _, .p _, _, _ => exact Go.rel_throw _
    | .v c, .v d, h', hd =>
      refine Go.rel_ite Iff.rfl (fun _ => ?_) (fun _ => ?_)
      · refine Go.Rel.bind (sumProd_rel' (B := B1 * B2) (N := N) hB hf
          (f := fun vi : Var R × ℕ => goGet2 l 0 vi.2) (g := fun vi : Var K × ℕ => goGet2 l' 0 vi.2)
          (f' := fun vi x => vi.1.mul (.k x)) (g' := fun vi x => vi.1.mul (.k x))
          (P := fun a b => SRel F (𝒢.g i) B1 (.k a) (.k b))
          (forall₂_zipIdx h' 0) (by rw [List.length_zipIdx]; exact hd) ?_ ?_)
          (fun _ _ h => Go.Rel.bind (h.asSimplified hf)
            (fun _ _ h => Go.rel_pure (a := Expr.s _) (b := Expr.s _) h))
        · rintro ⟨x, k⟩ ⟨y, _⟩ ⟨_, rfl⟩
          exact goGet2_rel h _ _
        · rintro ⟨x, k⟩ ⟨y, _⟩ p q ⟨hv, rfl⟩ hpq
          have := hv.1.mul hf1.swap hv.2 (a := .k p) (b := .k q) hpq
          rwa [Nat.add_comm j i, mul_comm B2 B1] at this
      · have hdl := cast_le_mul (B := B1 * B2) hda hB
        have := rel_foldlM_acc (A := fun (x y : ℕ) => x = y) (ERel F (𝒢.g (i + j)))
          (N := N * (B1 * B2)) hB
          (f := fun (acc : Expr R) (k : ℕ) => do
            let ks ← kToDense l
            let col ← ks.mapM (fun row => goGet row k)
            let v ← goGet c k
            acc.plus (← v.mulVecDense col))
          (g := fun (acc : Expr K) (k : ℕ) => do
            let ks ← kToDense l'
            let col ← ks.mapM (fun row => goGet row k)
            let v ← goGet d k
            acc.plus (← v.mulVecDense col))
          (by
            rintro C m _ p q rfl hC hCN hpq
            exact Go.Rel.bind (kToDense_rel h) (fun _ _ hk => Go.Rel.bind
              (Go.rel_mapM hk (fun _ _ hr => goGet_rel hr _)) (fun _ _ hcol => Go.Rel.bind
              (goGet_rel h' _) (fun _ _ hv => Go.Rel.bind (VRel.mulVecDense hf1 hv hcol)
              (fun x y hxy => ERel.plus (hf.mono hCN) hC hB hpq hxy)))))
          (List.forall₂_same.2 (fun x _ => rfl) : List.Forall₂ _ (List.range da.2) (List.range da.2))
          0 (.v (.k (List.replicate da.1 GoNum.zero))) (.v (.k (List.replicate da.1 GoNum.zero))) le_rfl
          (by rw [zero_add, List.length_range]; exact hdl)
          (forall₂_replicate (A := fun a b => SRel F (𝒢.g (i + j)) 0 (.k a) (.k b))
            ⟨crel_zero, by rw [abs_zero]⟩ _)
        rw [zero_add, List.length_range] at this
        exact Go.Rel.bind (this.erel hdl) (fun _ _ h => h.asSimplified hf)
  | .m c, .m d, h' =>
    refine Go.Rel.bind (ERel.check h') (fun _ _ _ => Go.Rel.bind (rowDims_le h hr) ?_)
    rintro da _ ⟨rfl, hda⟩
    refine Go.Rel.bind (ERel.dims h') ?_
    rintro dc _ rfl
    refine Go.Rel.bind (Go.rel_unit _) (fun _ _ _ => ?_)
    exact Go.Rel.bind (matMulTemplate_rel hB1 hB2 hN hf (a := .k l) (b := .k l') h hr h')
      (fun _ _ h => h.asSimplified hf)

theorem vmMul_rel (hB1 : 0 ≤ B1) (hB2 : 0 ≤ B2) (hN : 1 ≤ N)
    (hf : Fit F (𝒢.g (i + j)) (N * (B1 * B2))) {l : List (List (Var R))} {l' : List (List (Var K))}
    (h : MatRel F (𝒢.g i) B1 (.v l) (.v l')) (hr : Mat.RowsLE N (.v l')) {c : Expr R} {d : Expr K}
    (h' : ERel F (𝒢.g j) B2 c d) :
    Go.Rel (ERel F (𝒢.g (i + j)) (N * (B1 * B2))) (vmMul l c) (vmMul l' d) := by
  have hB : 0 ≤ B1 * B2 := mul_nonneg hB1 hB2
  have hle : B1 * B2 ≤ N * (B1 * B2) := by simpa using cast_le_mul (B := B1 * B2) hN hB
  have hf1 : Fit F (𝒢.g (i + j)) (B1 * B2) := hf.mono hle
  match c, d, h' with
  | .s c, .s d, h' =>
    exact (MatRel.mulScalar hf1 (a := .v l) (b := .v l') h h').erel hle
  | .v c, .v d, h' =>
    refine Go.Rel.bind h.check (fun _ _ _ => Go.Rel.bind (ERel.check h') (fun _ _ _ =>
      Go.Rel.bind (rowDims_le h hr) ?_))
    rintro da _ ⟨rfl, hda⟩
    refine Go.Rel.bind (ERel.dims h') ?_
    rintro dc _ rfl
    refine Go.Rel.bind (Go.rel_unit _) (fun _ _ _ => ?_)
    match c, d, h' with
    | .k c, .k d, h' =>
      refine Go.Rel.bind (Go.rel_mapM (forall₂_and h hr) (B := SRel F (𝒢.g (i + j)) (N * (B1 * B2))) ?_)
        (fun _ _ h => Go.Rel.bind (concretizeV_rel hf.one h) (fun _ _ h => h.asSimplified hf))
      rintro r r' ⟨hrr, hlen⟩
      refine sumProd_rel' (B := B1 * B2) (N := N) hB hf
        (f := fun vi : Var R × ℕ => goGet c vi.2) (g := fun vi : Var K × ℕ => goGet d vi.2)
        (f' := fun vi x => vi.1.mul (.k x)) (g' := fun vi x => vi.1.mul (.k x))
        (P := fun a b => SRel F (𝒢.g j) B2 (.k a) (.k b))
        (forall₂_zipIdx hrr 0) (by rw [List.length_zipIdx]; exact hlen) ?_ ?_
      · rintro ⟨x, k⟩ ⟨y, _⟩ ⟨_, rfl⟩
        exact goGet_rel h' _
      · rintro ⟨x, k⟩ ⟨y, _⟩ p q ⟨hv, rfl⟩ hpq
        exact hv.1.mul hf1 hv.2 (a := .k p) (b := .k q) hpq
    | .m _, .m _, _ => exact Go.rel_throw _
    | .p _, .p _, _ => exact Go.rel_throw _
    | .v c, .v d, h' =>
      have hdl := cast_le_mul (B := B1 * B2) hda hB
      have := rel_foldlM_acc (A := fun (x y : ℕ) => x = y) (ERel F (𝒢.g (i + j)))
        (N := N * (B1 * B2)) hB
        (f := fun (acc : Expr R) (k : ℕ) => do
          let col ← l.mapM (fun row => goGet row k)
          let v ← goGet c k
          acc.plus (← Vec.mul (.v col) (.s (.var v))))
        (g := fun (acc : Expr K) (k : ℕ) => do
          let col ← l'.mapM (fun row => goGet row k)
          let v ← goGet d k
          acc.plus (← Vec.mul (.v col) (.s (.var v))))
        (by
          rintro C m _ p q rfl hC hCN hpq
          exact Go.Rel.bind
            (Go.rel_mapM h (fun _ _ hr => goGet_rel hr _)) (fun s t hcol => Go.Rel.bind
            (goGet_rel h' _) (fun x y hv => Go.Rel.bind
              (VecRel.mul hf1 (a := .v s) (b := .v t) hcol (c := .s (.var x)) (d := .s (.var y)) hv)
            (fun x y hxy => ERel.plus (hf.mono hCN) hC hB hpq hxy))))
        (List.forall₂_same.2 (fun x _ => rfl) : List.Forall₂ _ (List.range da.2) (List.range da.2))
        0 (.s (.k GoNum.zero)) (.s (.k GoNum.zero)) le_rfl
        (by rw [zero_add, List.length_range]; exact hdl) ⟨crel_zero, by rw [gn_zero, abs_zero]⟩
      rw [zero_add, List.length_range] at this
      exact Go.Rel.bind (this.erel hdl) (fun _ _ h => h.asSimplified hf)
  | .m c, .m d, h' =>
    refine Go.Rel.bind h.check (fun _ _ _ => Go.Rel.bind (ERel.check h') (fun _ _ _ =>
      Go.Rel.bind (rowDims_le h hr) ?_))
    rintro da _ ⟨rfl, hda⟩
    refine Go.Rel.bind (ERel.dims h') ?_
    rintro dc _ rfl
    refine Go.Rel.bind (Go.rel_unit _) (fun _ _ _ => ?_)
    exact Go.Rel.bind (matMulTemplate_rel hB1 hB2 hN hf (a := .v l) (b := .v l') h hr h')
      (fun _ _ h => h.asSimplified hf)

theorem mmRowMul_rel (hB1 : 0 ≤ B1) (hB2 : 0 ≤ B2) (hN : 1 ≤ N)
    (hf : Fit F (𝒢.g (i + j)) (N * (B1 * B2))) {l : List (Mono R)} {l' : List (Mono K)}
    (h : VecRel F (𝒢.g i) B1 (.m l) (.m l')) (hr : l'.length ≤ N) {c : List (Var R)} {d : List (Var K)}
    (h' : VecRel F (𝒢.g j) B2 (.v c) (.v d)) :
    Go.Rel (SRel F (𝒢.g (i + j)) (N * (B1 * B2))) (mmRowMul l c) (mmRowMul l' d) := by
  have hB : 0 ≤ B1 * B2 := mul_nonneg hB1 hB2
  have hle : B1 * B2 ≤ N * (B1 * B2) := by simpa using cast_le_mul (B := B1 * B2) hN hB
  have hf1 : Fit F (𝒢.g (i + j)) (B1 * B2) := hf.mono hle
  have mulv : ∀ x y p q, SRel F (𝒢.g i) B1 (.mono x) (.mono y) → SRel F (𝒢.g j) B2 (.var p) (.var q) →
      Go.Rel (SRel F (𝒢.g (i + j)) (B1 * B2)) (x.toPoly.mul (.var p)) (y.toPoly.mul (.var q)) :=
    fun x y p q hm hv => lmul_rel hf1 (hm.1.single hm.2) (a := .var p) (b := .var q) hv
  refine Go.Rel.bind (goGet_rel h 0) (fun m0 n0 hm0 => Go.Rel.bind (goGet_rel h' 0)
    (fun v0 w0 hv0 => Go.Rel.bind (mulv _ _ _ _ hm0 hv0) (fun s t hst => ?_)))
  have hdrop : List.Forall₂ (fun (a : Mono R × ℕ) (b : Mono K × ℕ) =>
      SRel F (𝒢.g i) B1 (.mono a.1) (.mono b.1) ∧ a.2 = b.2) (l.zipIdx.drop 1) (l'.zipIdx.drop 1) :=
    List.forall₂_drop 1 (forall₂_zipIdx h 0)
  have hlen : B1 * B2 + ((l'.zipIdx.drop 1).length : K) * (B1 * B2) ≤ N * (B1 * B2) := by
    have e : (l'.zipIdx.drop 1).length + 1 ≤ N := by
      rw [List.length_drop, List.length_zipIdx]; omega
    have := cast_le_mul (B := B1 * B2) e hB
    rw [Nat.cast_succ] at this
    linarith
  refine (rel_foldlM_acc (SRel F (𝒢.g (i + j))) (N := N * (B1 * B2)) hB ?_ hdrop
    (B1 * B2) s t hB hlen hst).srel hlen
  rintro C ⟨x, k⟩ ⟨y, _⟩ p q ⟨hxy, rfl⟩ hC hCN hpq
  refine Go.Rel.bind (goGet_rel h' _) (fun v w hv => Go.Rel.bind (mulv _ _ _ _ hxy hv)
    (fun s t hst => Go.Rel.bind (SRel.plus (hf.mono hCN) hpq hst) (fun s t hst => ?_)))
  match s, t, hst with
  | .k _, .k _, _ => exact Go.rel_throw _
  | .var _, .var _, _ => exact Go.rel_throw _
  | .mono _, .mono _, _ => exact Go.rel_throw _
  | .poly _, .poly _, h => exact Go.rel_pure (a := Scalar.poly _) (b := Scalar.poly _) h

theorem mmMul_rel (hB1 : 0 ≤ B1) (hB2 : 0 ≤ B2) (hN : 1 ≤ N)
    (hf : Fit F (𝒢.g (i + j)) (N * (B1 * B2))) {l : List (List (Mono R))} {l' : List (List (Mono K))}
    (h : MatRel F (𝒢.g i) B1 (.m l) (.m l')) (hr : Mat.RowsLE N (.m l')) {c : Expr R} {d : Expr K}
    (h' : ERel F (𝒢.g j) B2 c d) :
    Go.Rel (ERel F (𝒢.g (i + j)) (N * (B1 * B2))) (mmMul l c) (mmMul l' d) := by
  have hB : 0 ≤ B1 * B2 := mul_nonneg hB1 hB2
  have hle : B1 * B2 ≤ N * (B1 * B2) := by simpa using cast_le_mul (B := B1 * B2) hN hB
  have hf1 : Fit F (𝒢.g (i + j)) (B1 * B2) := hf.mono hle
  match c, d, h' with
  | .s c, .s d, h' =>
    exact (MatRel.mulScalar hf1 (a := .m l) (b := .m l') h h').erel hle
  | .v c, .v d, h' =>
    refine Go.Rel.bind h.check (fun _ _ _ => Go.Rel.bind (ERel.check h') (fun _ _ _ =>
      Go.Rel.bind (rowDims_le h hr) ?_))
    rintro da _ ⟨rfl, hda⟩
    refine Go.Rel.bind (ERel.dims h') ?_
    rintro dc _ rfl
    refine Go.Rel.bind (Go.rel_unit _) (fun _ _ _ => ?_)
    match c, d, h' with
    | .k c, .k d, h' => exact Go.rel_throw _
    | .m _, .m _, _ => exact Go.rel_throw _
    | .p _, .p _, _ => exact Go.rel_throw _
    | .v c, .v d, h' =>
      refine Go.rel_ite Iff.rfl (fun _ => ?_) (fun _ => ?_)
      · refine Go.Rel.bind (goGet_rel (forall₂_and h hr) 0) ?_
        rintro r r' ⟨hrr, hlen⟩
        refine Go.Rel.bind (sumProd_rel' (B := B1 * B2) (N := N) hB hf
          (f := fun vi : Mono R × ℕ => goGet c vi.2) (g := fun vi : Mono K × ℕ => goGet d vi.2)
          (f' := fun vi x => vi.1.mul (.var x)) (g' := fun vi x => vi.1.mul (.var x))
          (P := fun a b => SRel F (𝒢.g j) B2 (.var a) (.var b))
          (forall₂_zipIdx hrr 0) (by rw [List.length_zipIdx]; exact hlen) ?_ ?_)
          (fun _ _ h => Go.Rel.bind (h.asSimplified hf)
            (fun _ _ h => Go.rel_pure (a := Expr.s _) (b := Expr.s _) h))
        · rintro ⟨x, k⟩ ⟨y, _⟩ ⟨_, rfl⟩
          exact goGet_rel h' _
        · rintro ⟨x, k⟩ ⟨y, _⟩ p q ⟨hv, rfl⟩ hpq
          exact hv.1.mul hf1 hv.2 (a := .var p) (b := .var q) hpq
      · refine Go.Rel.bind (Go.rel_mapM (forall₂_and h hr) (B := SRel F (𝒢.g (i + j)) (N * (B1 * B2))) ?_)
          (fun _ _ h => Go.Rel.bind (concretizeVec_rel hf.one h)
            (fun _ _ h => Go.rel_pure (a := Expr.v _) (b := Expr.v _) h))
        rintro r r' ⟨hrr, hlen⟩
        exact mmRowMul_rel hB1 hB2 hN hf hrr hlen h'
  | .m c, .m d, h' =>
    refine Go.Rel.bind h.check (fun _ _ _ => Go.Rel.bind (ERel.check h') (fun _ _ _ =>
      Go.Rel.bind (rowDims_le h hr) ?_))
    rintro da _ ⟨rfl, hda⟩
    refine Go.Rel.bind (ERel.dims h') ?_
    rintro dc _ rfl
    refine Go.Rel.bind (Go.rel_unit _) (fun _ _ _ => ?_)
    exact matMulTemplate_rel hB1 hB2 hN hf (a := .m l) (b := .m l') h hr h'

theorem pmMul_rel (hB1 : 0 ≤ B1) (hB2 : 0 ≤ B2) (hN : 1 ≤ N)
    (hf : Fit F (𝒢.g (i + j)) (N * (B1 * B2))) {l : List (List (Poly R))} {l' : List (List (Poly K))}
    (h : MatRel F (𝒢.g i) B1 (.p l) (.p l')) (hr : Mat.RowsLE N (.p l')) {c : Expr R} {d : Expr K}
    (h' : ERel F (𝒢.g j) B2 c d) :
    Go.Rel (ERel F (𝒢.g (i + j)) (N * (B1 * B2))) (pmMul l c) (pmMul l' d) := by
  have hB : 0 ≤ B1 * B2 := mul_nonneg hB1 hB2
  have hle : B1 * B2 ≤ N * (B1 * B2) := by simpa using cast_le_mul (B := B1 * B2) hN hB
  have hf1 : Fit F (𝒢.g (i + j)) (B1 * B2) := hf.mono hle
  match c, d, h' with
  | .s c, .s d, h' =>
    exact (MatRel.mulScalar hf1 (a := .p l) (b := .p l') h h').erel hle
  | .v c, .v d, h' =>
    refine Go.Rel.bind h.check (fun _ _ _ => Go.Rel.bind (ERel.check h') (fun _ _ _ =>
      Go.Rel.bind (rowDims_le h hr) ?_))
    rintro da _ ⟨rfl, hda⟩
    refine Go.Rel.bind (ERel.dims h') ?_
    rintro dc _ rfl
    refine Go.Rel.bind (Go.rel_unit _) (fun _ _ _ => ?_)
    match c, d, h' with
    | .k c, .k d, h' => exact Go.rel_throw _
    | .m _, .m _, _ => exact Go.rel_throw _
    | .p _, .p _, _ => exact Go.rel_throw _
    | .v c, .v d, h' =>
      refine Go.Rel.bind (Go.rel_mapM (forall₂_and h hr) (B := SRel F (𝒢.g (i + j)) (N * (B1 * B2))) ?_)
        (fun s t hst => Go.rel_ite Iff.rfl (fun _ => ?_) (fun _ => concretizeV_rel hf.one hst))
      · rintro r r' ⟨hrr, hlen⟩
        refine sumProd_rel' (B := B1 * B2) (N := N) hB hf
          (f := fun vi : Poly R × ℕ => goGet c vi.2) (g := fun vi : Poly K × ℕ => goGet d vi.2)
          (f' := fun vi x => vi.1.mul (.var x)) (g' := fun vi x => vi.1.mul (.var x))
          (P := fun a b => SRel F (𝒢.g j) B2 (.var a) (.var b))
          (forall₂_zipIdx hrr 0) (by rw [List.length_zipIdx]; exact hlen) ?_ ?_
        · rintro ⟨x, k⟩ ⟨y, _⟩ ⟨_, rfl⟩
          exact goGet_rel h' _
        · rintro ⟨x, k⟩ ⟨y, _⟩ p q ⟨hv, rfl⟩ hpq
          exact lmul_rel hf1 hv (a := .var p) (b := .var q) hpq
      · exact Go.Rel.bind (goGet_rel hst 0) (fun _ _ h => Go.Rel.bind (h.asSimplified hf)
          (fun _ _ h => Go.rel_pure (a := Expr.s _) (b := Expr.s _) h))
  | .m c, .m d, h' =>
    refine Go.Rel.bind h.check (fun _ _ _ => Go.Rel.bind (ERel.check h') (fun _ _ _ =>
      Go.Rel.bind (rowDims_le h hr) ?_))
    rintro da _ ⟨rfl, hda⟩
    refine Go.Rel.bind (ERel.dims h') ?_
    rintro dc _ rfl
    refine Go.Rel.bind (Go.rel_unit _) (fun _ _ _ => ?_)
    exact matMulTemplate_rel hB1 hB2 hN hf (a := .p l) (b := .p l') h hr h'

theorem MatRel.mul (hB1 : 0 ≤ B1) (hB2 : 0 ≤ B2) (hN : 1 ≤ N)
    (hf : Fit F (𝒢.g (i + j)) (N * (B1 * B2))) {a : Mat R} {b : Mat K}
    (h : MatRel F (𝒢.g i) B1 a b) (hr : b.RowsLE N) {c : Expr R} {d : Expr K}
    (h' : ERel F (𝒢.g j) B2 c d) (hd : d.LenLE N) :
    Go.Rel (ERel F (𝒢.g (i + j)) (N * (B1 * B2))) (a.mul c) (b.mul d) := by
  match a, b, h, hr with
  | .k _, .k _, h, hr => exact kmMul_rel hB1 hB2 hN hf h hr h' hd
  | .v _, .v _, h, hr => exact vmMul_rel hB1 hB2 hN hf h hr h'
  | .m _, .m _, h, hr => exact mmMul_rel hB1 hB2 hN hf h hr h'
  | .p _, .p _, h, hr => exact pmMul_rel hB1 hB2 hN hf h hr h'

/-- The sums in the product of the two expressions have at most `N` terms. -/
def Expr.RowsLE (N : ℕ) : Expr K → Prop
  | .m a => a.RowsLE N
  | _ => True

/-- `Multiply` by a scalar on floats does what it does on exact numbers: no sums. -/
theorem ERel.mulScalar (hf : Fit F (𝒢.g (i + j)) (B1 * B2)) {a : Expr R} {b : Expr K}
    (h : ERel F (𝒢.g i) B1 a b) {c : Scalar R} {d : Scalar K} (h' : SRel F (𝒢.g j) B2 c d) :
    Go.Rel (ERel F (𝒢.g (i + j)) (B1 * B2)) (a.mul (.s c)) (b.mul (.s d)) := by
  match a, b, h with
  | .s a, .s b, h =>
    have e := Go.Rel.bind (SRel.mul hf h h')
      (fun x y h => Go.rel_pure (A := ERel F (𝒢.g (i + j)) (B1 * B2)) (a := Expr.s x) (b := Expr.s y) h)
    match a, b, h with
    | .k _, .k _, _ => exact e
    | .var _, .var _, _ => exact e
    | .mono _, .mono _, _ => exact e
    | .poly _, .poly _, _ => exact e
  | .v _, .v _, h => exact VecRel.mulScalar hf h h'
  | .m _, .m _, h => exact MatRel.mulScalar hf h h'

/-- `Multiply` on floats does what it does on exact numbers. -/
theorem ERel.mul (hB1 : 0 ≤ B1) (hB2 : 0 ≤ B2) (hN : 1 ≤ N)
    (hf : Fit F (𝒢.g (i + j)) (N * (B1 * B2))) {a c : Expr R} {b d : Expr K}
    (h : ERel F (𝒢.g i) B1 a b) (hr : b.RowsLE N) (h' : ERel F (𝒢.g j) B2 c d) (hd : d.LenLE N) :
    Go.Rel (ERel F (𝒢.g (i + j)) (N * (B1 * B2))) (a.mul c) (b.mul d) := by
  have hB : 0 ≤ B1 * B2 := mul_nonneg hB1 hB2
  have hle : B1 * B2 ≤ N * (B1 * B2) := by simpa using cast_le_mul (B := B1 * B2) hN hB
  have hf1 : Fit F (𝒢.g (i + j)) (B1 * B2) := hf.mono hle
  match c, d, h' with
  | .s c, .s d, h' => exact (ERel.mulScalar hf1 h h').erel hle
  | .v c, .v d, h' =>
    match a, b, h with
    | .s (.k _), .s (.k _), h => exact Go.Rel.bind (ERel.check h') (fun _ _ _ => Go.rel_throw _)
    | .s (.var _), .s (.var _), h =>
      have := VRel.mulVec hf1.swap h h'
      rw [Nat.add_comm j i, mul_comm B2 B1] at this
      exact this.erel hle
    | .s (.mono _), .s (.mono _), h =>
      refine Go.Rel.bind h.1.check (fun _ _ _ => Go.Rel.bind (ERel.check h') (fun _ _ _ =>
        Go.Rel.bind (ERel.dims h') ?_))
      rintro n _ rfl
      exact Go.Rel.bind (Go.rel_unit _) (fun _ _ _ => Go.rel_throw _)
    | .s (.poly p), .s (.poly q), h =>
      have hp : SRel F (𝒢.g i) B1 (.poly p) (.poly q) := h
      have e := ERel.mulScalar hf1.swap (a := .v c) (b := .v d) h' hp
      rw [Nat.add_comm j i, mul_comm B2 B1] at e
      exact Go.Rel.bind (lcheck_rel h.1) (fun _ _ _ => Go.Rel.bind (ERel.check h') (fun _ _ _ =>
        Go.Rel.bind (e.erel hle) (fun _ _ h => h.asSimplified hf)))
    | .v _, .v _, h => exact (VecRel.mul hf1 h h').erel hle
    | .m _, .m _, h => exact MatRel.mul hB1 hB2 hN hf h hr h' hd
  | .m c, .m d, h' =>
    match a, b, h with
    | .s (.k _), .s (.k _), h => exact Go.Rel.bind (ERel.check h') (fun _ _ _ => Go.rel_throw _)
    | .s (.var _), .s (.var _), h =>
      refine Go.Rel.bind h.1.check (fun _ _ _ => Go.Rel.bind (MatRel.check h') (fun _ _ _ =>
        Go.Rel.bind (MatRel.dims h') ?_))
      rintro n _ rfl
      exact Go.Rel.bind (Go.rel_unit _) (fun _ _ _ => Go.rel_throw _)
    | .s (.mono _), .s (.mono _), h =>
      refine Go.Rel.bind h.1.check (fun _ _ _ => Go.Rel.bind (ERel.check h') (fun _ _ _ =>
        Go.Rel.bind (ERel.dims h') ?_))
      rintro n _ rfl
      exact Go.Rel.bind (Go.rel_unit _) (fun _ _ _ => Go.rel_throw _)
    | .s (.poly p), .s (.poly q), h =>
      have hp : SRel F (𝒢.g i) B1 (.poly p) (.poly q) := h
      have e := ERel.mulScalar hf1.swap (a := .m c) (b := .m d) h' hp
      rw [Nat.add_comm j i, mul_comm B2 B1] at e
      exact Go.Rel.bind (lcheck_rel h.1) (fun _ _ _ => Go.Rel.bind (ERel.check h') (fun _ _ _ =>
        Go.Rel.bind (e.erel hle) (fun _ _ h => h.asSimplified hf)))
    | .v _, .v _, h => exact (VecRel.mul hf1 h (c := .m c) (d := .m d) h').erel hle
    | .m _, .m _, h => exact MatRel.mul hB1 hB2 hN hf h hr h' hd

/-! ## Minus -/

theorem ERel.mulF64 (hf : Fit F (𝒢.g (i + j)) (B1 * B2)) {a : Expr R} {b : Expr K}
    (h : ERel F (𝒢.g i) B1 a b) {x : R} {q : K} (hx : CRel F (𝒢.g j) x q) (hq : |q| ≤ B2) :
    Go.Rel (ERel F (𝒢.g (i + j)) (B1 * B2)) (a.mulF64 x) (b.mulF64 q) := by
  have e := ERel.mulScalar hf h (c := .k x) (d := .k q) ⟨hx, hq⟩
  have e2 := Go.Rel.bind e (fun x y h => ERel.asSimplified hf h)
  match a, b, h with
  | .s (.k _), .s (.k _), h =>
    exact Go.rel_pure (a := Expr.s (.k _)) (b := Expr.s (.k _))
      ⟨CRel.mul hf h.1 hx h.2 hq, abs_mul_le_mul h.2 hq⟩
  | .s (.var _), .s (.var _), h => exact e2
  | .s (.mono _), .s (.mono _), h => exact e
  | .s (.poly _), .s (.poly _), h => exact e2
  | .v (.k _), .v (.k _), h => exact e2
  | .v (.v _), .v (.v _), h => exact e
  | .v (.m _), .v (.m _), h => exact e2
  | .v (.p _), .v (.p _), h => exact e2
  | .m (.k _), .m (.k _), h => exact e
  | .m (.v _), .m (.v _), h => exact e2
  | .m (.m _), .m (.m _), h => exact e
  | .m (.p _), .m (.p _), h => exact e2

theorem ERel.minusGen (hf : Fit F (𝒢.g i) (B1 + B2)) (hB1 : 0 ≤ B1) (hB2 : 0 ≤ B2) {a c : Expr R}
    {b d : Expr K} (h : ERel F (𝒢.g i) B1 a b) (h' : ERel F (𝒢.g i) B2 c d) :
    Go.Rel (ERel F (𝒢.g i) (B1 + B2)) (a.minusGen c) (b.minusGen d) := by
  have hn : |(negOne : K)| ≤ 1 := by simp [negOne]
  have e : Fit F (𝒢.g (i + 0)) (B2 * 1) := by
    rw [Nat.add_zero, mul_one]; exact hf.mono (by linarith)
  refine Go.Rel.bind (ERel.mulF64 e h' crel_negOne hn) (fun x y hxy => ?_)
  rw [Nat.add_zero, mul_one] at hxy
  exact ERel.plus hf hB1 hB2 h hxy

/-- `Minus` on floats does what it does on exact numbers. -/
theorem ERel.minus (hf : Fit F (𝒢.g i) (B1 + B2)) (hB1 : 0 ≤ B1) (hB2 : 0 ≤ B2) {a c : Expr R}
    {b d : Expr K} (h : ERel F (𝒢.g i) B1 a b) (h' : ERel F (𝒢.g i) B2 c d) :
    Go.Rel (ERel F (𝒢.g i) (B1 + B2)) (a.minus c) (b.minus d) := by
  have main := ERel.minusGen hf hB1 hB2 h h'
  have gen : Go.Rel (ERel F (𝒢.g i) (B1 + B2))
      (do a.check; c.check; checkDimAdd (← a.dims) (← c.dims); a.minusGen c)
      (do b.check; d.check; checkDimAdd (← b.dims) (← d.dims); b.minusGen d) := by
    refine Go.Rel.bind h.check (fun _ _ _ => Go.Rel.bind h'.check (fun _ _ _ =>
      Go.Rel.bind h.dims ?_))
    rintro n _ rfl
    refine Go.Rel.bind h'.dims ?_
    rintro n' _ rfl
    exact Go.Rel.bind (Go.rel_unit _) (fun _ _ _ => main)
  match a, b, h with
  | .s (.k _), .s (.k _), h => exact Go.Rel.bind h'.check (fun _ _ _ => main)
  | .s (.var _), .s (.var _), h => exact gen
  | .s (.mono _), .s (.mono _), h => exact gen
  | .s (.poly _), .s (.poly _), h =>
    exact Go.Rel.bind (lcheck_rel h.1) (fun _ _ _ => Go.Rel.bind h'.check (fun _ _ _ => main))
  | .v (.k l), .v (.k l'), h =>
    have hl : l.length = l'.length := h.length_eq
    unfold Expr.minus
    simp only
    rw [hl]
    refine Go.Rel.bind h'.check (fun _ _ _ => Go.Rel.bind h'.dims ?_)
    rintro n _ rfl
    refine Go.Rel.bind (Go.rel_unit _) (fun _ _ _ => ?_)
    match c, d, h' with
    | .s _, .s _, _ => exact main
    | .v _, .v _, _ => exact main
    | .m _, .m _, _ => exact Go.rel_throw _
  | .v (.v _), .v (.v _), h => exact gen
  | .v (.m _), .v (.m _), h => exact gen
  | .v (.p _), .v (.p _), h => exact gen
  | .m (.k _), .m (.k _), h => exact gen
  | .m (.v _), .m (.v _), h => exact gen
  | .m (.m _), .m (.m _), h => exact gen
  | .m (.p _), .m (.p _), h => exact gen

end Verif
