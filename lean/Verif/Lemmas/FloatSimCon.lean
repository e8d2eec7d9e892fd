import Verif.Lemmas.FloatSimArr2

/-!
# Constraints on floats

Continues `Lemmas/FloatSimArr2`: what is done with constraints on floats is what is done with exact
numbers.
-/

set_option linter.unusedSectionVars false

namespace Verif

section
variable {R K : Type} [GoNum R] [Field K] [LinearOrder K]
variable (F : FloatModel R K) (G : AddSubgroup K) (B1 B2 : K)

/-- The same scalar constraint. -/
def SConRel (c : SCon R) (d : SCon K) : Prop :=
  SRel F G B1 c.lhs d.lhs ∧ SRel F G B2 c.rhs d.rhs ∧ c.sense = d.sense

/-- The same vector constraint. -/
def VConRel (c : VCon R) (d : VCon K) : Prop :=
  VecRel F G B1 c.lhs d.lhs ∧ VecRel F G B2 c.rhs d.rhs ∧ c.sense = d.sense

/-- The same matrix constraint. -/
def MConRel (c : MCon R) (d : MCon K) : Prop :=
  MatRel F G B1 c.lhs d.lhs ∧ MatRel F G B2 c.rhs d.rhs ∧ c.sense = d.sense

/-- The same constraint. -/
def ConRel : Con R → Con K → Prop
  | .s c, .s d => SConRel F G B1 B2 c d
  | .v c, .v d => VConRel F G B1 B2 c d
  | .m c, .m d => MConRel F G B1 B2 c d
  | _, _ => False

end

variable {R K : Type} [GoNum R] [Field K] [LinearOrder K]
variable {F : FloatModel R K} {G : AddSubgroup K} {B B1 B2 : K}
variable [IsStrictOrderedRing K]
variable {𝒢 : Grids K} {i j N : ℕ}

theorem ConRel.left {c : Con R} {d : Con K} (h : ConRel F G B1 B2 c d) :
    ERel F G B1 c.left d.left := by
  match c, d, h with
  | .s _, .s _, h => exact h.1
  | .v _, .v _, h => exact h.1
  | .m _, .m _, h => exact h.1

theorem ConRel.right {c : Con R} {d : Con K} (h : ConRel F G B1 B2 c d) :
    ERel F G B2 c.right d.right := by
  match c, d, h with
  | .s _, .s _, h => exact h.2.1
  | .v _, .v _, h => exact h.2.1
  | .m _, .m _, h => exact h.2.1

theorem ConRel.sense {c : Con R} {d : Con K} (h : ConRel F G B1 B2 c d) : c.sense = d.sense := by
  match c, d, h with
  | .s _, .s _, h => exact h.2.2
  | .v _, .v _, h => exact h.2.2
  | .m _, .m _, h => exact h.2.2

theorem SConRel.weaken {G' : AddSubgroup K} {B1' B2' : K} (hG : G ≤ G') (h1 : B1 ≤ B1') (h2 : B2 ≤ B2')
    {c : SCon R} {d : SCon K} (h : SConRel F G B1 B2 c d) : SConRel F G' B1' B2' c d :=
  ⟨(h.1.grade hG).mono h1, (h.2.1.grade hG).mono h2, h.2.2⟩

/-! ## Comparison -/

theorem ERel.isScalarType {a : Expr R} {b : Expr K} (h : ERel F G B a b) :
    a.isScalarType = b.isScalarType := by
  match a, b, h with
  | .s _, .s _, _ => rfl
  | .v _, .v _, _ => rfl
  | .m _, .m _, _ => rfl

theorem checkDimCompare_rel {a c : Expr R} {b d : Expr K} (h : ERel F G B1 a b) (h' : ERel F G B2 c d) :
    Go.Rel (fun _ _ => True) (checkDimCompare a c) (checkDimCompare b d) := by
  refine Go.Rel.bind h.dims ?_
  rintro n _ rfl
  refine Go.Rel.bind h'.dims ?_
  rintro m _ rfl
  exact Go.rel_ite (by rw [h.isScalarType, h'.isScalarType]) (fun _ => Go.rel_pure trivial)
    (fun _ => Go.rel_throw _)

theorem constVec_rel (hf : Fit F (𝒢.g i) B) (n : ℕ) {x : R} {q : K}
    (h : SRel F (𝒢.g i) B (.k x) (.k q)) :
    Go.Rel (List.Forall₂ (fun a b => SRel F (𝒢.g i) B (.k a) (.k b))) (constVec n x) (constVec n q) :=
  newVecDense_rel' (forall₂_replicate (A := fun a b => SRel F (𝒢.g i) B (.k a) (.k b))
    (mulOne_rel hf h) n)

theorem scon_rel_pure {a c : Scalar R} {b d : Scalar K} (h : SRel F G B1 a b) (h' : SRel F G B2 c d)
    (s : Sense) : Go.Rel (ConRel F G B1 B2) (pure (Con.s ⟨a, c, s⟩)) (pure (Con.s ⟨b, d, s⟩)) :=
  Go.rel_pure (a := Con.s _) (b := Con.s _) ⟨h, h', rfl⟩

theorem vcon_rel_pure {a c : Vec R} {b d : Vec K} (h : VecRel F G B1 a b) (h' : VecRel F G B2 c d)
    (s : Sense) : Go.Rel (ConRel F G B1 B2) (pure (Con.v ⟨a, c, s⟩)) (pure (Con.v ⟨b, d, s⟩)) :=
  Go.rel_pure (a := Con.v _) (b := Con.v _) ⟨h, h', rfl⟩

theorem mcon_rel_pure {a c : Mat R} {b d : Mat K} (h : MatRel F G B1 a b) (h' : MatRel F G B2 c d)
    (s : Sense) : Go.Rel (ConRel F G B1 B2) (pure (Con.m ⟨a, c, s⟩)) (pure (Con.m ⟨b, d, s⟩)) :=
  Go.rel_pure (a := Con.m _) (b := Con.m _) ⟨h, h', rfl⟩

theorem SRel.comparison {a : Scalar R} {b : Scalar K} (h : SRel F G B1 a b) {c : Expr R} {d : Expr K}
    (h' : ERel F G B2 c d) (s : Sense) :
    Go.Rel (ConRel F G B1 B2) (a.comparison c s) (b.comparison d s) := by
  refine Go.Rel.bind h.check (fun _ _ _ => Go.Rel.bind h'.check (fun _ _ _ => ?_))
  match c, d, h' with
  | .s _, .s _, h' =>
    match a, b, h with
    | .k _, .k _, h => exact scon_rel_pure (a := .k _) (b := .k _) h h' s
    | .var _, .var _, h => exact scon_rel_pure (a := .var _) (b := .var _) h h' s
    | .mono _, .mono _, h => exact scon_rel_pure (a := .mono _) (b := .mono _) h h' s
    | .poly _, .poly _, h => exact scon_rel_pure (a := .poly _) (b := .poly _) h h' s
  | .v (.k l), .v (.k l'), h' =>
    match a, b, h with
    | .k _, .k _, h =>
      exact vcon_rel_pure (a := .k _) (b := .k _) (c := .k _) (d := .k _)
        (forall₂_map (P := fun a b => SRel F G B1 (.k a) (.k b)) h' (fun _ _ _ => h)) h' s
    | .var _, .var _, h => exact Go.rel_throw _
    | .mono _, .mono _, h => exact Go.rel_throw _
    | .poly _, .poly _, h => exact Go.rel_throw _
  | .v (.v l), .v (.v l'), h' =>
    match a, b, h with
    | .k _, .k _, h =>
      exact vcon_rel_pure (a := .k _) (b := .k _) (c := .v _) (d := .v _)
        (forall₂_map (P := fun a b => SRel F G B1 (.k a) (.k b)) h' (fun _ _ _ => h)) h' s
    | .var _, .var _, h => exact Go.rel_throw _
    | .mono _, .mono _, h => exact Go.rel_throw _
    | .poly _, .poly _, h => exact Go.rel_throw _
  | .v (.m _), .v (.m _), h' =>
    match a, b, h with
    | .k _, .k _, h => exact Go.rel_throw _
    | .var _, .var _, h => exact Go.rel_throw _
    | .mono _, .mono _, h => exact Go.rel_throw _
    | .poly _, .poly _, h => exact Go.rel_throw _
  | .v (.p _), .v (.p _), h' =>
    match a, b, h with
    | .k _, .k _, h => exact Go.rel_throw _
    | .var _, .var _, h => exact Go.rel_throw _
    | .mono _, .mono _, h => exact Go.rel_throw _
    | .poly _, .poly _, h => exact Go.rel_throw _
  | .m _, .m _, h' =>
    match a, b, h with
    | .k _, .k _, h => exact Go.rel_throw _
    | .var _, .var _, h => exact Go.rel_throw _
    | .mono _, .mono _, h => exact Go.rel_throw _
    | .poly _, .poly _, h => exact Go.rel_throw _

theorem VecRel.comparison (hf : Fit F (𝒢.g i) B2) {a : Vec R} {b : Vec K} (h : VecRel F (𝒢.g i) B1 a b)
    {c : Expr R} {d : Expr K} (h' : ERel F (𝒢.g i) B2 c d) (s : Sense) :
    Go.Rel (ConRel F (𝒢.g i) B1 B2) (a.comparison c s) (b.comparison d s) := by
  refine Go.Rel.bind h.check (fun _ _ _ => Go.Rel.bind h'.check (fun _ _ _ =>
    Go.Rel.bind (checkDimCompare_rel (a := .v a) (b := .v b) h h') (fun _ _ _ => ?_)))
  have sc : ∀ (x : R) (q : K), SRel F (𝒢.g i) B2 (.k x) (.k q) →
      Go.Rel (ConRel F (𝒢.g i) B1 B2)
        (do
          let l ← constVec (← a.len) x
          return .v ⟨a, .k l, s⟩)
        (do
          let l ← constVec (← b.len) q
          return .v ⟨b, .k l, s⟩) := by
    intro x q hq
    refine Go.Rel.bind h.len ?_
    rintro n _ rfl
    exact Go.Rel.bind (constVec_rel hf n hq) (fun _ _ h'' => vcon_rel_pure (c := .k _) (d := .k _) h h'' s)
  match c, d, h' with
  | .s (.k _), .s (.k _), h' =>
    match a, b, h with
    | .k _, .k _, h => exact sc _ _ h'
    | .v _, .v _, h => exact Go.rel_throw _
    | .m _, .m _, h => exact sc _ _ h'
    | .p _, .p _, h => exact sc _ _ h'
  | .s (.var _), .s (.var _), h' =>
    match a, b, h with
    | .k _, .k _, h => exact Go.rel_throw _
    | .v _, .v _, h => exact Go.rel_throw _
    | .m _, .m _, h => exact Go.rel_throw _
    | .p _, .p _, h => exact Go.rel_throw _
  | .s (.mono _), .s (.mono _), h' =>
    match a, b, h with
    | .k _, .k _, h => exact Go.rel_throw _
    | .v _, .v _, h => exact Go.rel_throw _
    | .m _, .m _, h => exact Go.rel_throw _
    | .p _, .p _, h => exact Go.rel_throw _
  | .s (.poly _), .s (.poly _), h' =>
    match a, b, h with
    | .k _, .k _, h => exact Go.rel_throw _
    | .v _, .v _, h => exact Go.rel_throw _
    | .m _, .m _, h => exact Go.rel_throw _
    | .p _, .p _, h => exact Go.rel_throw _
  | .v x, .v y, h' =>
    match a, b, h with
    | .k _, .k _, h => exact vcon_rel_pure (a := .k _) (b := .k _) h h' s
    | .v _, .v _, h => exact vcon_rel_pure (a := .v _) (b := .v _) h h' s
    | .m _, .m _, h =>
      match x, y, h' with
      | .k _, .k _, h' => exact vcon_rel_pure (a := .m _) (b := .m _) (c := .k _) (d := .k _) h h' s
      | .v _, .v _, h' => exact vcon_rel_pure (a := .m _) (b := .m _) (c := .v _) (d := .v _) h h' s
      | .m _, .m _, h' => exact vcon_rel_pure (a := .m _) (b := .m _) (c := .m _) (d := .m _) h h' s
      | .p _, .p _, h' => exact Go.rel_throw _
    | .p _, .p _, h => exact vcon_rel_pure (a := .p _) (b := .p _) h h' s
  | .m _, .m _, h' =>
    match a, b, h with
    | .k _, .k _, h => exact Go.rel_throw _
    | .v _, .v _, h => exact Go.rel_throw _
    | .m _, .m _, h => exact Go.rel_throw _
    | .p _, .p _, h => exact Go.rel_throw _

theorem MatRel.comparison (hf : Fit F (𝒢.g i) B2) {a : Mat R} {b : Mat K} (h : MatRel F (𝒢.g i) B1 a b)
    {c : Expr R} {d : Expr K} (h' : ERel F (𝒢.g i) B2 c d) (s : Sense) :
    Go.Rel (ConRel F (𝒢.g i) B1 B2) (a.comparison c s) (b.comparison d s) := by
  refine Go.Rel.bind h.check (fun _ _ _ => Go.Rel.bind h'.check (fun _ _ _ =>
    Go.Rel.bind (checkDimCompare_rel (a := .m a) (b := .m b) h h') (fun _ _ _ => ?_)))
  have sc : ∀ (x : R) (q : K), SRel F (𝒢.g i) B2 (.k x) (.k q) →
      Go.Rel (ConRel F (𝒢.g i) B1 B2)
        (do
          let l ← constRows (← a.dims) x
          return .m ⟨a, .k l, s⟩)
        (do
          let l ← constRows (← b.dims) q
          return .m ⟨b, .k l, s⟩) := by
    intro x q hq
    refine Go.Rel.bind h.dims ?_
    rintro n _ rfl
    exact Go.Rel.bind (constRows_rel hf n hq) (fun _ _ h'' => mcon_rel_pure (c := .k _) (d := .k _) h h'' s)
  match c, d, h' with
  | .s (.k _), .s (.k _), h' =>
    match a, b, h with
    | .k _, .k _, h => exact sc _ _ h'
    | .v _, .v _, h => exact sc _ _ h'
    | .m _, .m _, h => exact sc _ _ h'
    | .p _, .p _, h => exact sc _ _ h'
  | .s (.var _), .s (.var _), h' =>
    match a, b, h with
    | .k _, .k _, h => exact Go.rel_throw _
    | .v _, .v _, h => exact Go.rel_throw _
    | .m _, .m _, h => exact Go.rel_throw _
    | .p _, .p _, h => exact Go.rel_throw _
  | .s (.mono _), .s (.mono _), h' =>
    match a, b, h with
    | .k _, .k _, h => exact Go.rel_throw _
    | .v _, .v _, h => exact Go.rel_throw _
    | .m _, .m _, h => exact Go.rel_throw _
    | .p _, .p _, h => exact Go.rel_throw _
  | .s (.poly _), .s (.poly _), h' =>
    match a, b, h with
    | .k _, .k _, h => exact Go.rel_throw _
    | .v _, .v _, h => exact Go.rel_throw _
    | .m _, .m _, h => exact Go.rel_throw _
    | .p _, .p _, h => exact Go.rel_throw _
  | .v _, .v _, h' =>
    match a, b, h with
    | .k _, .k _, h => exact Go.rel_throw _
    | .v _, .v _, h => exact Go.rel_throw _
    | .m _, .m _, h => exact Go.rel_throw _
    | .p _, .p _, h => exact Go.rel_throw _
  | .m x, .m y, h' =>
    match a, b, h with
    | .k _, .k _, h =>
      match x, y, h' with
      | .k _, .k _, h' => exact mcon_rel_pure (a := .k _) (b := .k _) (c := .k _) (d := .k _) h h' s
      | .v _, .v _, h' => exact mcon_rel_pure (a := .k _) (b := .k _) (c := .v _) (d := .v _) h h' s
      | .m _, .m _, h' => exact mcon_rel_pure (a := .k _) (b := .k _) (c := .m _) (d := .m _) h h' s
      | .p _, .p _, h' => exact mcon_rel_pure (a := .k _) (b := .k _) (c := .p _) (d := .p _) h h' s
    | .v _, .v _, h =>
      match x, y, h' with
      | .k _, .k _, h' => exact mcon_rel_pure (a := .v _) (b := .v _) (c := .k _) (d := .k _) h h' s
      | .v _, .v _, h' => exact mcon_rel_pure (a := .v _) (b := .v _) (c := .v _) (d := .v _) h h' s
      | .m _, .m _, h' => exact mcon_rel_pure (a := .v _) (b := .v _) (c := .m _) (d := .m _) h h' s
      | .p _, .p _, h' => exact mcon_rel_pure (a := .v _) (b := .v _) (c := .p _) (d := .p _) h h' s
    | .m _, .m _, h =>
      match x, y, h' with
      | .k _, .k _, h' => exact mcon_rel_pure (a := .m _) (b := .m _) (c := .k _) (d := .k _) h h' s
      | .v _, .v _, h' => exact mcon_rel_pure (a := .m _) (b := .m _) (c := .v _) (d := .v _) h h' s
      | .m _, .m _, h' => exact mcon_rel_pure (a := .m _) (b := .m _) (c := .m _) (d := .m _) h h' s
      | .p _, .p _, h' => exact mcon_rel_pure (a := .m _) (b := .m _) (c := .p _) (d := .p _) h h' s
    | .p _, .p _, h =>
      match x, y, h' with
      | .k _, .k _, h' => exact mcon_rel_pure (a := .p _) (b := .p _) (c := .k _) (d := .k _) h h' s
      | .v _, .v _, h' => exact Go.rel_throw _
      | .m _, .m _, h' => exact Go.rel_throw _
      | .p _, .p _, h' => exact Go.rel_throw _

/-- `Comparison` on floats does what it does on exact numbers. -/
theorem ERel.comparison (hf : Fit F (𝒢.g i) B2) {a c : Expr R} {b d : Expr K}
    (h : ERel F (𝒢.g i) B1 a b) (h' : ERel F (𝒢.g i) B2 c d) (s : Sense) :
    Go.Rel (ConRel F (𝒢.g i) B1 B2) (a.comparison c s) (b.comparison d s) := by
  match a, b, h with
  | .s _, .s _, h => exact SRel.comparison h h' s
  | .v _, .v _, h => exact VecRel.comparison hf h h' s
  | .m _, .m _, h => exact MatRel.comparison hf h h' s

/-! ## Check, IsLinear, Variables -/

theorem SConRel.check {c : SCon R} {d : SCon K} (h : SConRel F G B1 B2 c d) :
    Go.Rel (fun _ _ => True) c.check d.check := by
  refine Go.Rel.bind h.1.check (fun _ _ _ => Go.Rel.bind h.2.1.check (fun _ _ _ => ?_))
  rw [h.2.2]
  exact Go.rel_unit _

theorem VConRel.check {c : VCon R} {d : VCon K} (h : VConRel F G B1 B2 c d) :
    Go.Rel (fun _ _ => True) c.check d.check := by
  refine Go.Rel.bind h.1.check (fun _ _ _ => Go.Rel.bind h.2.1.check (fun _ _ _ => ?_))
  rw [h.2.2]
  refine Go.Rel.bind (Go.rel_unit _) (fun _ _ _ => Go.Rel.bind h.1.dims ?_)
  rintro n _ rfl
  refine Go.Rel.bind h.2.1.dims ?_
  rintro m _ rfl
  exact Go.rel_unit _

theorem MConRel.check {c : MCon R} {d : MCon K} (h : MConRel F G B1 B2 c d) :
    Go.Rel (fun _ _ => True) c.check d.check := by
  refine Go.Rel.bind h.1.check (fun _ _ _ => Go.Rel.bind h.2.1.check (fun _ _ _ =>
    Go.Rel.bind h.1.dims ?_))
  rintro n _ rfl
  refine Go.Rel.bind h.2.1.dims ?_
  rintro m _ rfl
  rw [h.2.2]
  exact Go.rel_unit _

/-- `Check` of a constraint on floats does what it does on exact numbers. -/
theorem ConRel.check {c : Con R} {d : Con K} (h : ConRel F G B1 B2 c d) :
    Go.Rel (fun _ _ => True) c.check d.check := by
  match c, d, h with
  | .s _, .s _, h => exact SConRel.check h
  | .v _, .v _, h => exact VConRel.check h
  | .m _, .m _, h => exact MConRel.check h

theorem ERel.isLinear {a : Expr R} {b : Expr K} (h : ERel F G B a b) :
    Go.Rel (· = ·) a.isLinear b.isLinear := by
  refine Go.Rel.bind h.degree ?_
  rintro d _ rfl
  exact Go.rel_pure rfl

/-- `IsLinear` of a constraint on floats does what it does on exact numbers. -/
theorem ConRel.isLinear {c : Con R} {d : Con K} (h : ConRel F G B1 B2 c d) :
    Go.Rel (· = ·) c.isLinear d.isLinear := by
  refine Go.Rel.bind h.right.isLinear ?_
  rintro x _ rfl
  exact Go.rel_ite Iff.rfl (fun _ => h.left.isLinear) (fun _ => Go.rel_pure rfl)

theorem ConRel.requireLinear {c : Con R} {d : Con K} (h : ConRel F G B1 B2 c d) :
    Go.Rel (fun _ _ => True) c.requireLinear d.requireLinear := by
  refine Go.Rel.bind h.isLinear ?_
  rintro x _ rfl
  exact Go.rel_unit _

theorem addKey_rel {a : List (Var R)} {b : List (Var K)} (h : List.Forall₂ (VRel F) a b)
    {v : Var R} {w : Var K} (hv : VRel F v w) :
    List.Forall₂ (VRel F) (addKey a v) (addKey b w) := by
  unfold addKey
  rw [any_rel h (f := fun x => x.keyEq v) (g := fun x => x.keyEq w) (fun _ _ h => h.keyEq hv)]
  split
  · exact h
  · exact List.rel_append h (List.Forall₂.cons hv List.Forall₂.nil)

theorem addKeys_rel {l : List (Var R)} {l' : List (Var K)} (hl : List.Forall₂ (VRel F) l l') :
    List.Forall₂ (VRel F) (l.foldl addKey []) (l'.foldl addKey []) := by
  have key : ∀ {l : List (Var R)} {l' : List (Var K)}, List.Forall₂ (VRel F) l l' →
      ∀ a a', List.Forall₂ (VRel F) a a' →
        List.Forall₂ (VRel F) (l.foldl addKey a) (l'.foldl addKey a') := by
    intro l l' hl
    induction hl with
    | nil => exact fun _ _ h => h
    | cons hx _ ih => exact fun a a' h => ih _ _ (addKey_rel h hx)
  exact key hl _ _ List.Forall₂.nil

/-- `Variables` of a constraint on floats does what it does on exact numbers. -/
theorem ConRel.variables {c : Con R} {d : Con K} (h : ConRel F G B1 B2 c d) :
    Go.Rel (List.Forall₂ (VRel F)) c.variables d.variables :=
  Go.Rel.bind h.check (fun _ _ _ => Go.Rel.bind h.left.variables (fun _ _ h1 =>
    Go.Rel.bind h.right.variables (fun _ _ h2 => Go.rel_pure (addKeys_rel (List.rel_append h1 h2)))))

/-! ## Scalar constraints -/

/-- `Simplify` on floats does what it does on exact numbers. -/
theorem SConRel.simplify (hf : Fit F (𝒢.g i) (B1 + B2 + B2)) {c : SCon R} {d : SCon K}
    (h : SConRel F (𝒢.g i) B1 B2 c d) :
    Go.Rel (SConRel F (𝒢.g i) (B1 + B2 + B2) B2) c.simplify d.simplify := by
  obtain ⟨cl, cr, cs⟩ := c
  obtain ⟨dl, dr, ds⟩ := d
  obtain ⟨h1, h2, h3⟩ := h
  simp only at h1 h2 h3
  subst h3
  have n1 := h1.nonneg
  have n2 := h2.nonneg
  have gen : Go.Rel (SConRel F (𝒢.g i) (B1 + B2 + B2) B2)
      (do
        let d ← cl.minus cr
        let l ← d.plusF64 (← cr.constant)
        return (⟨l, .k (← cr.constant), cs⟩ : SCon R))
      (do
        let d ← dl.minus dr
        let l ← d.plusF64 (← dr.constant)
        return (⟨l, .k (← dr.constant), cs⟩ : SCon K)) :=
    Go.Rel.bind (SRel.minus (hf.mono (by linarith)) h1 h2) (fun _ _ h => Go.Rel.bind h2.constant
      (fun _ _ hc => Go.Rel.bind (SRel.plusF64 hf h hc.1 hc.2) (fun _ _ h => Go.Rel.bind h2.constant
        (fun _ _ hc => Go.rel_pure ⟨h, hc, rfl⟩))))
  match cr, dr, h2 with
  | .k _, .k _, h2 => exact Go.rel_pure ⟨h1.mono (by linarith), h2, rfl⟩
  | .var _, .var _, _ => exact gen
  | .mono _, .mono _, _ => exact gen
  | .poly _, .poly _, _ => exact gen

theorem negOneMul_rel (hf : Fit F (𝒢.g i) B) {x : R} {q : K} (h : SRel F (𝒢.g i) B (.k x) (.k q)) :
    SRel F (𝒢.g i) B (.k (GoNum.mul negOne x)) (.k (GoNum.mul negOne q)) := by
  have hn : |(negOne : K)| ≤ 1 := by simp [negOne]
  have h1 := CRel.mul (i := 0) (j := i) (B1 := 1) (B2 := B) (by rwa [Nat.zero_add, one_mul])
    crel_negOne h.1 hn h.2
  rw [Nat.zero_add] at h1
  refine ⟨h1, ?_⟩
  have := h.2
  simpa [negOne] using this

theorem neg_rel {x : R} {q : K} (h : SRel F G B (.k x) (.k q)) :
    SRel F G B (.k (GoNum.neg x)) (.k (GoNum.neg q)) :=
  ⟨⟨F.neg h.1.1, G.neg_mem h.1.2⟩, by have := h.2; simpa using this⟩

theorem sub_rel (hf : Fit F G (B1 + B2)) {x y : R} {p q : K} (h : SRel F G B2 (.k x) (.k p))
    (h' : SRel F G B1 (.k y) (.k q)) :
    SRel F G (B1 + B2) (.k (GoNum.sub x y)) (.k (GoNum.sub p q)) := by
  have e : |p - q| ≤ B1 + B2 := (abs_sub _ _).trans (by linarith [h.2, h'.2])
  exact ⟨⟨F.sub h.1.1 h'.1.1 (hf.able _ (G.sub_mem h.1.2 h'.1.2) e), G.sub_mem h.1.2 h'.1.2⟩, e⟩

/-- `LinearInequalityConstraintRepresentation` on floats does what it does on exact numbers. -/
theorem SConRel.linearIneq (hf : Fit F (𝒢.g i) (B1 + B2)) {c : SCon R} {d : SCon K}
    (h : SConRel F (𝒢.g i) B1 B2 c d) {wrt : List (List (Var R))} {wrt' : List (List (Var K))}
    (hw : List.Forall₂ (List.Forall₂ (VRel F)) wrt wrt') :
    Go.Rel (fun x y => List.Forall₂ (fun a b => SRel F (𝒢.g i) (B1 + B2) (.k a) (.k b)) x.1 y.1 ∧
        SRel F (𝒢.g i) (B1 + B2) (.k x.2) (.k y.2)) (c.linearIneq wrt) (d.linearIneq wrt') := by
  refine Go.Rel.bind h.check (fun _ _ _ => Go.Rel.bind
    (ConRel.requireLinear (c := .s c) (d := .s d) h) (fun _ _ _ =>
      Go.Rel.bind (SRel.minus hf h.1 h.2.1) (fun _ _ hd => Go.Rel.bind (hd.linearCoeff hf.one hw)
        (fun A A' hA => Go.Rel.bind h.2.1.constant (fun x x' hx => Go.Rel.bind h.1.constant
          (fun y y' hy => Go.rel_pure ?_))))))
  have hs := sub_rel hf hx hy
  rw [h.2.2]
  split
  · exact ⟨forall₂_map hA (fun _ _ h => negOneMul_rel hf h), neg_rel hs⟩
  · exact ⟨hA, hs⟩

/-- `LinearEqualityConstraintRepresentation` on floats does what it does on exact numbers. -/
theorem SConRel.linearEq (hf : Fit F (𝒢.g i) (B1 + B2)) {c : SCon R} {d : SCon K}
    (h : SConRel F (𝒢.g i) B1 B2 c d) {wrt : List (List (Var R))} {wrt' : List (List (Var K))}
    (hw : List.Forall₂ (List.Forall₂ (VRel F)) wrt wrt') :
    Go.Rel (fun x y => List.Forall₂ (fun a b => SRel F (𝒢.g i) (B1 + B2) (.k a) (.k b)) x.1 y.1 ∧
        SRel F (𝒢.g i) (B1 + B2) (.k x.2) (.k y.2)) (c.linearEq wrt) (d.linearEq wrt') := by
  refine Go.Rel.bind h.check (fun _ _ _ => Go.Rel.bind
    (ConRel.requireLinear (c := .s c) (d := .s d) h) (fun _ _ _ =>
      Go.rel_ite (by rw [h.2.2]) (fun _ => Go.rel_throw _) (fun _ =>
      Go.Rel.bind (SRel.minus hf h.1 h.2.1) (fun _ _ hd => Go.Rel.bind (hd.linearCoeff hf.one hw)
        (fun A A' hA => Go.Rel.bind h.2.1.constant (fun x x' hx => Go.Rel.bind h.1.constant
          (fun y y' hy => Go.rel_pure ⟨hA, sub_rel hf hx hy⟩)))))))

variable {S C : K} {D : ℕ}

/-- `Substitute` in a scalar constraint on floats does what it does on exact numbers. -/
theorem SConRel.substitute (hS : 1 ≤ S) (hfS : Fit F (𝒢.g (D * j)) (S ^ D)) {c : SCon R} {d : SCon K}
    (hc : SConRel F (𝒢.g i) B1 B2 c d) (hD : ∀ n ∈ d.lhs.termList, n.size ≤ D)
    (hD' : ∀ n ∈ d.rhs.termList, n.size ≤ D) (hD1 : 1 ≤ D)
    (hf1 : Fit F (𝒢.g (i + D * j)) (B1 * S ^ D)) (hf2 : Fit F (𝒢.g (i + D * j)) (B2 * S ^ D))
    {x : Var R} {y : Var K} (hx : VRel F x y)
    {s : Scalar R} {t : Scalar K} (h : SRel F (𝒢.g j) S s t) :
    Go.Rel (SConRel F (𝒢.g (i + D * j)) (B1 * S ^ D) (B2 * S ^ D)) (c.substitute x s)
      (d.substitute y t) :=
  Go.Rel.bind hc.check (fun _ _ _ => Go.Rel.bind (SRel.substitute hS hfS hc.1 hD hD1 hf1 hx h)
    (fun _ _ h1 => Go.Rel.bind (SRel.substitute hS hfS hc.2.1 hD' hD1 hf2 hx h)
      (fun _ _ h2 => Go.rel_pure ⟨h1, h2, hc.2.2⟩)))

/-- `SubstituteAccordingTo` in a scalar constraint on floats does what it does on exact numbers. -/
theorem SConRel.substMap (hS : 1 ≤ S) (hfS : Fit F (𝒢.g (D * j)) (S ^ D)) {c : SCon R} {d : SCon K}
    (hc : SConRel F (𝒢.g i) B1 B2 c d) (hD : ∀ n ∈ d.lhs.termList, n.size ≤ D)
    (hD' : ∀ n ∈ d.rhs.termList, n.size ≤ D) (hD1 : 1 ≤ D)
    (hf1 : Fit F (𝒢.g (i + D * j)) (B1 * S ^ D)) (hf2 : Fit F (𝒢.g (i + D * j)) (B2 * S ^ D))
    {sm : SubMap R} {tm : SubMap K} (h : SubRel F (𝒢.g j) S sm tm) :
    Go.Rel (SConRel F (𝒢.g (i + D * j)) (B1 * S ^ D) (B2 * S ^ D)) (c.substMap sm)
      (d.substMap tm) :=
  Go.Rel.bind hc.check (fun _ _ _ => Go.Rel.bind (SRel.substMap hS hfS hc.1 hD hD1 hf1 h)
    (fun _ _ h1 => Go.Rel.bind (SRel.substMap hS hfS hc.2.1 hD' hD1 hf2 h)
      (fun _ _ h2 => Go.rel_pure ⟨h1, h2, hc.2.2⟩)))

theorem lt_zero_rel {x : R} {q : K} (h : CRel F G x q) :
    GoNum.lt x GoNum.zero = GoNum.lt q GoNum.zero ∧ GoNum.lt GoNum.zero x = GoNum.lt GoNum.zero q := by
  constructor
  · rw [Bool.eq_iff_iff, F.lt h.1 F.zero, gn_lt, decide_eq_true_iff, gn_zero]
  · rw [Bool.eq_iff_iff, F.lt F.zero h.1, gn_lt, decide_eq_true_iff, gn_zero]

theorem le_rel {x y : R} {p q : K} (h : CRel F G x p) (h' : CRel F G y q) :
    GoNum.le x y = GoNum.le p q := by
  rw [Bool.eq_iff_iff, F.le h.1 h'.1, gn_le, decide_eq_true_iff]

/-- `ScaleBy` on floats does what it does on exact numbers. -/
theorem SConRel.scaleBy (hf1 : Fit F (𝒢.g (i + j)) (B1 * C)) (hf2 : Fit F (𝒢.g (i + j)) (B2 * C))
    {c : SCon R} {d : SCon K} (h : SConRel F (𝒢.g i) B1 B2 c d) {x : R} {q : K}
    (hx : SRel F (𝒢.g j) C (.k x) (.k q)) :
    Go.Rel (SConRel F (𝒢.g (i + j)) (B1 * C) (B2 * C)) (c.scaleBy x) (d.scaleBy q) := by
  refine Go.Rel.bind h.check (fun _ _ _ => Go.Rel.bind (SRel.mulF64 hf1 h.1 hx.1 hx.2) (fun _ _ h1 =>
    Go.Rel.bind (SRel.mulF64 hf2 h.2.1 hx.1 hx.2) (fun _ _ h2 => Go.rel_pure ⟨h1, h2, ?_⟩)))
  unfold flipSense
  simp only [h.2.2, (lt_zero_rel hx.1).1]

theorem boundsImply_rel (s t : Sense) {x y : R} {p q : K} (h : CRel F G x p) (h' : CRel F G y q) :
    Go.Rel (· = ·) (boundsImply s t x y) (boundsImply s t p q) := by
  have : boundsImply s t x y = boundsImply s t p q := by
    unfold boundsImply
    rw [le_rel h h', le_rel h' h, h.feq' h']
  rw [this]
  exact Go.rel_self _

/-- The number by which `ImpliesThisIsAlsoSatisfied` divides the simplified constraint satisfies `Q`, if
that constraint has one variable. -/
def SCon.Divides (Q : R → Prop) (c : SCon R) : Prop :=
  ∀ c' v l q, c.simplify = .ok c' → Con.variables (.s c') = .ok [v] →
    c'.lhs.linearCoeff [[v]] = .ok l → goGet l 0 = .ok q → Q q

theorem recip_rel {x : R} {q : K} (h : CRel F (𝒢.g i) x q)
    (hq : q ≠ 0 ∧ q⁻¹ ∈ 𝒢.g j ∧ |q⁻¹| ≤ C) (hf : Fit F (𝒢.g j) C) :
    SRel F (𝒢.g j) C (.k (GoNum.div GoNum.one x)) (.k (GoNum.div GoNum.one q)) := by
  have e : (GoNum.div GoNum.one q : K) = q⁻¹ := by simp
  rw [e]
  refine ⟨⟨?_, hq.2.1⟩, hq.2.2⟩
  have := F.div F.one h.1 hq.1 (by rw [one_div]; exact hf.able _ hq.2.1 hq.2.2)
  rwa [one_div] at this

/-- `ImpliesThisIsAlsoSatisfied` for scalar constraints on floats does what it does on exact numbers,
provided that the reciprocals of the coefficients are representable. -/
theorem SConRel.impliesS (hf : Fit F (𝒢.g i) (B + B + B)) (hC : Fit F (𝒢.g j) C)
    (hfC : Fit F (𝒢.g (i + j)) ((B + B + B) * C)) (hC0 : 0 ≤ C) (hB : 0 ≤ B)
    {c o : SCon R} {d p : SCon K} (h : SConRel F (𝒢.g i) B B c d) (h' : SConRel F (𝒢.g i) B B o p)
    (hd : d.Divides (fun q => q ≠ 0 ∧ q⁻¹ ∈ 𝒢.g j ∧ |q⁻¹| ≤ C))
    (hp : p.Divides (fun q => q ≠ 0 ∧ q⁻¹ ∈ 𝒢.g j ∧ |q⁻¹| ≤ C)) :
    Go.Rel (· = ·) (c.impliesS o) (d.impliesS p) := by
  have hBC : B * C ≤ (B + B + B) * C := mul_le_mul_of_nonneg_right (by linarith) hC0
  have split : ∀ {d d1 : SCon K} {dv : List (Var K)} {l : List K} {q : K},
      d.Divides (fun q => q ≠ 0 ∧ q⁻¹ ∈ 𝒢.g j ∧ |q⁻¹| ≤ C) → dv.length = 1 → d.simplify = .ok d1 →
      Con.variables (.s d1) = .ok dv → d1.lhs.linearCoeff [dv] = .ok l → goGet l 0 = .ok q →
      q ≠ 0 ∧ q⁻¹ ∈ 𝒢.g j ∧ |q⁻¹| ≤ C := by
    intro d d1 dv l q hd hl e1 e2 e3 e4
    obtain ⟨v, rfl⟩ := List.length_eq_one_iff.1 hl
    exact hd _ _ _ _ e1 e2 e3 e4
  have eqPost : ∀ {α : Type} (x : Go α), Go.Post x (fun a => x = .ok a) := fun x a h => h
  refine Go.Rel.bind h.check (fun _ _ _ => Go.Rel.bind h'.check (fun _ _ _ =>
    Go.Rel.bind ((h.simplify hf).post (eqPost _)) (fun c1 d1 h1 =>
      Go.Rel.bind ((h'.simplify hf).post (eqPost _)) (fun o1 p1 h2 => ?_))))
  obtain ⟨h1, e1⟩ := h1
  obtain ⟨h2, e2⟩ := h2
  refine Go.Rel.bind ((ConRel.variables (c := .s c1) (d := .s d1) h1).post (eqPost _))
    (fun cv dv hv => Go.Rel.bind ((ConRel.variables (c := .s o1) (d := .s p1) h2).post (eqPost _))
      (fun ov pv hv' => ?_))
  obtain ⟨hv, ev⟩ := hv
  obtain ⟨hv', ev'⟩ := hv'
  have hu : (unionOfVariables [cv, ov]).length = (unionOfVariables [dv, pv]).length :=
    (uniqueVars_rel (forall₂_flatten (List.Forall₂.cons hv (List.Forall₂.cons hv' List.Forall₂.nil)))).length_eq
  refine Go.rel_ite (by rw [hv.length_eq, hv'.length_eq, hu]) (fun hlen => ?_) (fun _ => Go.rel_pure rfl)
  rw [hv.length_eq, hv'.length_eq] at hlen
  refine Go.Rel.bind ((h1.1.linearCoeff hf.one (List.Forall₂.cons hv List.Forall₂.nil)).post (eqPost _))
    (fun l l' hl => ?_)
  obtain ⟨hl, el⟩ := hl
  refine Go.Rel.bind ((goGet_rel hl 0).post (eqPost _)) (fun x q hx => ?_)
  obtain ⟨hx, ex⟩ := hx
  refine Go.Rel.bind ((h2.1.linearCoeff hf.one (List.Forall₂.cons hv' List.Forall₂.nil)).post (eqPost _))
    (fun m m' hm => ?_)
  obtain ⟨hm, em⟩ := hm
  refine Go.Rel.bind ((goGet_rel hm 0).post (eqPost _)) (fun y r hy => ?_)
  obtain ⟨hy, ey⟩ := hy
  have r1 := recip_rel hx.1 (split hd hlen.1 e1 ev el ex) hC
  have r2 := recip_rel hy.1 (split hp hlen.2.1 e2 ev' em ey) hC
  refine Go.Rel.bind (h1.scaleBy hfC (hfC.mono hBC) r1) (fun c2 d2 g1 =>
    Go.Rel.bind (h2.scaleBy hfC (hfC.mono hBC) r2) (fun o2 p2 g2 =>
      Go.Rel.bind g1.2.1.constant (fun _ _ k1 => Go.Rel.bind g2.2.1.constant (fun _ _ k2 => ?_))))
  rw [g1.2.2, g2.2.2]
  exact boundsImply_rel _ _ k1.1 k2.1

/-- `IsNonnegativityConstraint` on floats does what it does on exact numbers. -/
theorem SConRel.isNonneg (hf : Fit F (𝒢.g i) (B1 + B2 + B2)) {c : SCon R} {d : SCon K}
    (h : SConRel F (𝒢.g i) B1 B2 c d) : Go.Rel (· = ·) c.isNonneg d.isNonneg := by
  refine Go.Rel.bind h.check (fun _ _ _ => Go.Rel.bind (h.simplify hf) (fun c d h => ?_))
  refine Go.Rel.bind (ConRel.variables (c := .s c) (d := .s d) h) (fun vs ws hv => ?_)
  refine Go.rel_ite (by rw [hv.length_eq]) (fun _ => Go.rel_pure rfl) (fun _ => ?_)
  refine Go.Rel.bind h.1.degree ?_
  rintro n _ rfl
  refine Go.rel_ite Iff.rfl (fun _ => Go.rel_pure rfl) (fun _ => ?_)
  obtain ⟨cl, cr, cs⟩ := c
  obtain ⟨dl, dr, ds⟩ := d
  obtain ⟨h1, h2, h3⟩ := h
  simp only at h1 h2 h3
  subst h3
  match cr, dr, h2 with
  | .k x, .k q, h2 =>
    refine Go.rel_ite (by rw [h2.1.feq' crel_zero, gn_zero]) (fun _ => Go.rel_pure rfl) (fun _ => ?_)
    refine Go.Rel.bind (h1.linearCoeff hf.one List.Forall₂.nil) (fun l l' hl =>
      Go.Rel.bind (goGet_rel hl 0) (fun x q hx => ?_))
    obtain ⟨e1, e2⟩ := lt_zero_rel hx.1
    exact Go.rel_pure (by rw [e1, e2])
  | .var _, .var _, _ => exact Go.rel_throw _
  | .mono _, .mono _, _ => exact Go.rel_throw _
  | .poly _, .poly _, _ => exact Go.rel_throw _

/-! ## Vector and matrix constraints -/

theorem VConRel.len {c : VCon R} {d : VCon K} (h : VConRel F G B1 B2 c d) :
    Go.Rel (· = ·) c.len d.len := Go.Rel.bind h.check (fun _ _ _ => h.1.len)

theorem VConRel.dims {c : VCon R} {d : VCon K} (h : VConRel F G B1 B2 c d) :
    Go.Rel (· = ·) c.dims d.dims := Go.Rel.bind h.check (fun _ _ _ => h.1.dims)

theorem VConRel.atVec {c : VCon R} {d : VCon K} (h : VConRel F G B1 B2 c d) (k : Int) :
    Go.Rel (SConRel F G B1 B2) (c.atVec k) (d.atVec k) := by
  refine Go.Rel.bind h.check (fun _ _ _ => Go.Rel.bind h.dims ?_)
  rintro n _ rfl
  exact Go.Rel.bind (Go.rel_unit _) (fun _ _ _ => Go.Rel.bind (h.1.atVec k) (fun _ _ h1 =>
    Go.Rel.bind (h.2.1.atVec k) (fun _ _ h2 => Go.rel_pure ⟨h1, h2, h.2.2⟩)))

theorem MConRel.dims {c : MCon R} {d : MCon K} (h : MConRel F G B1 B2 c d) :
    Go.Rel (· = ·) c.dims d.dims := Go.Rel.bind h.check (fun _ _ _ => h.1.dims)

theorem MConRel.at {c : MCon R} {d : MCon K} (h : MConRel F G B1 B2 c d) (k l : Int) :
    Go.Rel (SConRel F G B1 B2) (c.at k l) (d.at k l) := by
  refine Go.Rel.bind h.check (fun _ _ _ => Go.Rel.bind h.dims ?_)
  rintro n _ rfl
  exact Go.Rel.bind (Go.rel_unit _) (fun _ _ _ => Go.Rel.bind (h.1.at k l) (fun _ _ h1 =>
    Go.Rel.bind (h.2.1.at k l) (fun _ _ h2 => Go.rel_pure ⟨h1, h2, h.2.2⟩)))

theorem ERel.asVec {a : Expr R} {b : Expr K} (h : ERel F G B a b) :
    Go.Rel (VecRel F G B) a.asVec b.asVec := by
  match a, b, h with
  | .s _, .s _, _ => exact Go.rel_throw _
  | .v _, .v _, h => exact Go.rel_pure h
  | .m _, .m _, _ => exact Go.rel_throw _

theorem ERel.asMat {a : Expr R} {b : Expr K} (h : ERel F G B a b) :
    Go.Rel (MatRel F G B) a.asMat b.asMat := by
  match a, b, h with
  | .s _, .s _, _ => exact Go.rel_throw _
  | .v _, .v _, _ => exact Go.rel_throw _
  | .m _, .m _, h => exact Go.rel_pure h

theorem VConRel.newLHS (hB1 : 0 ≤ B1) (hB2 : 0 ≤ B2) (hf : Fit F (𝒢.g i) (B1 + (B2 + B2)))
    {c : VCon R} {d : VCon K} (h : VConRel F (𝒢.g i) B1 B2 c d) :
    Go.Rel (VecRel F (𝒢.g i) (B1 + (B2 + B2))) c.newLHS d.newLHS :=
  Go.Rel.bind h.2.1.constant (fun x y hc => Go.Rel.bind (ERel.minus (hf.mono (by linarith)) hB2 hB2
      (a := .v c.rhs) (b := .v d.rhs) (c := .v (.k x)) (d := .v (.k y)) h.2.1 hc) (fun _ _ hr =>
    Go.Rel.bind hr.asVec (fun x y hr => Go.Rel.bind (ERel.minus hf hB1 (by linarith)
      (a := .v c.lhs) (b := .v d.lhs) (c := .v x) (d := .v y) h.1 hr) (fun _ _ h => h.asVec))))

theorem forall₂_zipWith_sub (hf : Fit F G (B1 + B2)) {l m : List R} {l' m' : List K}
    (h : List.Forall₂ (fun a b => SRel F G B2 (.k a) (.k b)) l l')
    (h' : List.Forall₂ (fun a b => SRel F G B1 (.k a) (.k b)) m m') :
    List.Forall₂ (fun a b => SRel F G (B1 + B2) (.k a) (.k b)) (List.zipWith GoNum.sub l m)
      (List.zipWith GoNum.sub l' m') := by
  induction h generalizing m m' with
  | nil => exact List.Forall₂.nil
  | cons hx _ ih =>
    cases h' with
    | nil => exact List.Forall₂.nil
    | cons hy h' => exact List.Forall₂.cons (sub_rel hf hx hy) (ih h')

theorem VConRel.newRHS (hf : Fit F (𝒢.g i) (B1 + B2)) {c : VCon R} {d : VCon K}
    (h : VConRel F (𝒢.g i) B1 B2 c d) :
    Go.Rel (List.Forall₂ (fun a b => SRel F (𝒢.g i) (B1 + B2) (.k a) (.k b))) c.newRHS d.newRHS := by
  refine Go.Rel.bind h.1.len ?_
  rintro n _ rfl
  refine Go.rel_ite Iff.rfl (fun _ => Go.rel_throw _) (fun _ => Go.Rel.bind h.2.1.constant
    (fun r r' hr => Go.Rel.bind h.1.constant (fun l l' hl => ?_)))
  exact Go.rel_ite (by rw [hr.length_eq, hl.length_eq]) (fun _ => Go.rel_throw _)
    (fun _ => Go.rel_pure (forall₂_zipWith_sub hf hr hl))

/-- `LinearInequalityConstraintRepresentation` of a vector constraint on floats does what it does on
exact numbers. -/
theorem VConRel.linearIneq (hB1 : 0 ≤ B1) (hB2 : 0 ≤ B2) (hf : Fit F (𝒢.g i) (B1 + (B2 + B2)))
    {c : VCon R} {d : VCon K} (h : VConRel F (𝒢.g i) B1 B2 c d)
    {wrt : List (List (Var R))} {wrt' : List (List (Var K))}
    (hw : List.Forall₂ (List.Forall₂ (VRel F)) wrt wrt') :
    Go.Rel (fun x y => List.Forall₂ (List.Forall₂ (fun a b =>
          SRel F (𝒢.g i) (B1 + (B2 + B2)) (.k a) (.k b))) x.1 y.1 ∧
        List.Forall₂ (fun a b => SRel F (𝒢.g i) (B1 + B2) (.k a) (.k b)) x.2 y.2)
      (c.linearIneq wrt) (d.linearIneq wrt') := by
  have hf2 : Fit F (𝒢.g i) (B1 + B2) := hf.mono (by linarith)
  refine Go.Rel.bind h.check (fun _ _ _ => Go.Rel.bind
    (ConRel.requireLinear (c := .v c) (d := .v d) h) (fun _ _ _ =>
      Go.rel_ite (by rw [h.2.2]) (fun _ => Go.rel_throw _) (fun _ =>
      Go.Rel.bind (h.newLHS hB1 hB2 hf) (fun _ _ hd => Go.Rel.bind (hd.linearCoeff hf.one hw)
        (fun A A' hA => Go.Rel.bind (h.newRHS hf2) (fun x x' hx => Go.rel_pure ?_))))))
  rw [h.2.2]
  split
  · exact ⟨forall₂_map₂ hA (fun _ _ h => negOneMul_rel hf h),
      forall₂_map hx (fun _ _ h => negOneMul_rel hf2 h)⟩
  · exact ⟨hA, hx⟩

/-- `LinearEqualityConstraintRepresentation` of a vector constraint on floats does what it does on
exact numbers. -/
theorem VConRel.linearEq (hB1 : 0 ≤ B1) (hB2 : 0 ≤ B2) (hf : Fit F (𝒢.g i) (B1 + (B2 + B2)))
    {c : VCon R} {d : VCon K} (h : VConRel F (𝒢.g i) B1 B2 c d)
    {wrt : List (List (Var R))} {wrt' : List (List (Var K))}
    (hw : List.Forall₂ (List.Forall₂ (VRel F)) wrt wrt') :
    Go.Rel (fun x y => List.Forall₂ (List.Forall₂ (fun a b =>
          SRel F (𝒢.g i) (B1 + (B2 + B2)) (.k a) (.k b))) x.1 y.1 ∧
        List.Forall₂ (fun a b => SRel F (𝒢.g i) (B1 + B2) (.k a) (.k b)) x.2 y.2)
      (c.linearEq wrt) (d.linearEq wrt') := by
  have hf2 : Fit F (𝒢.g i) (B1 + B2) := hf.mono (by linarith)
  exact Go.Rel.bind h.check (fun _ _ _ => Go.Rel.bind
    (ConRel.requireLinear (c := .v c) (d := .v d) h) (fun _ _ _ =>
      Go.rel_ite (by rw [h.2.2]) (fun _ => Go.rel_throw _) (fun _ =>
      Go.Rel.bind (h.newLHS hB1 hB2 hf) (fun _ _ hd => Go.Rel.bind (hd.linearCoeff hf.one hw)
        (fun A A' hA => Go.Rel.bind (h.newRHS hf2) (fun x x' hx => Go.rel_pure ⟨hA, hx⟩))))))

theorem VConRel.simplify (hB1 : 0 ≤ B1) (hB2 : 0 ≤ B2) (hf : Fit F (𝒢.g i) (B1 + B1 + (B2 + B2)))
    {c : VCon R} {d : VCon K} (h : VConRel F (𝒢.g i) B1 B2 c d) :
    Go.Rel (VConRel F (𝒢.g i) (B1 + B1 + (B2 + B2)) (B2 + B1)) c.simplify d.simplify :=
  Go.Rel.bind h.check (fun _ _ _ =>
    Go.Rel.bind h.1.constant (fun x y hc => Go.Rel.bind (ERel.minus (hf.mono (by linarith)) hB1 hB1
      (a := .v c.lhs) (b := .v d.lhs) (c := .v (.k x)) (d := .v (.k y)) h.1 hc) (fun _ _ hl =>
    Go.Rel.bind h.2.1.constant (fun x y hc => Go.Rel.bind (ERel.minus (hf.mono (by linarith)) hB2 hB2
      (a := .v c.rhs) (b := .v d.rhs) (c := .v (.k x)) (d := .v (.k y)) h.2.1 hc) (fun _ _ hr =>
    Go.Rel.bind (ERel.minus hf (by linarith) (by linarith) hl hr) (fun _ _ hn =>
    Go.Rel.bind h.2.1.constant (fun x y hc => Go.Rel.bind h.1.constant (fun x' y' hc' =>
    Go.Rel.bind (ERel.minus (hf.mono (by linarith)) hB2 hB1 (a := .v (.k x)) (b := .v (.k y))
      (c := .v (.k x')) (d := .v (.k y')) hc hc') (fun _ _ hm =>
    Go.Rel.bind hn.asVec (fun _ _ hn => Go.Rel.bind hm.asVec (fun _ _ hm =>
      Go.rel_pure ⟨hn, hm, h.2.2⟩)))))))))))

theorem MConRel.simplify (hB1 : 0 ≤ B1) (hB2 : 0 ≤ B2) (hf : Fit F (𝒢.g i) (B1 + B1 + (B2 + B2)))
    {c : MCon R} {d : MCon K} (h : MConRel F (𝒢.g i) B1 B2 c d) :
    Go.Rel (MConRel F (𝒢.g i) (B1 + B1 + (B2 + B2)) (B2 + B1)) c.simplify d.simplify :=
    Go.Rel.bind h.1.constant (fun x y hc => Go.Rel.bind (ERel.minus (hf.mono (by linarith)) hB1 hB1
      (a := .m c.lhs) (b := .m d.lhs) (c := .m (.k x)) (d := .m (.k y)) h.1 hc) (fun _ _ hl =>
    Go.Rel.bind h.2.1.constant (fun x y hc => Go.Rel.bind (ERel.minus (hf.mono (by linarith)) hB2 hB2
      (a := .m c.rhs) (b := .m d.rhs) (c := .m (.k x)) (d := .m (.k y)) h.2.1 hc) (fun _ _ hr =>
    Go.Rel.bind (ERel.minus hf (by linarith) (by linarith) hl hr) (fun _ _ hn =>
    Go.Rel.bind h.2.1.constant (fun x y hc => Go.Rel.bind h.1.constant (fun x' y' hc' =>
    Go.Rel.bind (ERel.minus (hf.mono (by linarith)) hB2 hB1 (a := .m (.k x)) (b := .m (.k y))
      (c := .m (.k x')) (d := .m (.k y')) hc hc') (fun _ _ hm =>
    Go.Rel.bind hn.asMat (fun _ _ hn => Go.Rel.bind hm.asMat (fun _ _ hm =>
      Go.rel_pure ⟨hn, hm, h.2.2⟩))))))))))

/-- `AsSimplifiedConstraint` on floats does what it does on exact numbers. -/
theorem ConRel.simplify (hB1 : 0 ≤ B1) (hB2 : 0 ≤ B2) (hf : Fit F (𝒢.g i) (B1 + B1 + (B2 + B2)))
    {c : Con R} {d : Con K} (h : ConRel F (𝒢.g i) B1 B2 c d) :
    Go.Rel (ConRel F (𝒢.g i) (B1 + B1 + (B2 + B2)) (B2 + B1)) c.simplify d.simplify := by
  match c, d, h with
  | .s _, .s _, h =>
    exact Go.Rel.bind (SConRel.simplify (hf.mono (by linarith)) h) (fun _ _ h =>
      Go.rel_pure (a := Con.s _) (b := Con.s _) (SConRel.weaken le_rfl (by linarith) (by linarith) h))
  | .v _, .v _, h =>
    exact Go.Rel.bind (VConRel.simplify hB1 hB2 hf h) (fun _ _ h =>
      Go.rel_pure (a := Con.v _) (b := Con.v _) h)
  | .m _, .m _, h =>
    exact Go.Rel.bind (MConRel.simplify hB1 hB2 hf h) (fun _ _ h =>
      Go.rel_pure (a := Con.m _) (b := Con.m _) h)

/-- `Substitute` in a constraint on floats does what it does on exact numbers. -/
theorem ConRel.substitute (hB1 : 0 ≤ B1) (hB2 : 0 ≤ B2) (hS : 1 ≤ S)
    (hfS : Fit F (𝒢.g (D * j)) (S ^ D)) {c : Con R} {d : Con K}
    (hc : ConRel F (𝒢.g i) B1 B2 c d) (hD : ∀ r ∈ d.left.grid, ∀ s ∈ r, ∀ n ∈ s.termList, n.size ≤ D)
    (hD' : ∀ r ∈ d.right.grid, ∀ s ∈ r, ∀ n ∈ s.termList, n.size ≤ D) (hD1 : 1 ≤ D)
    (hf1 : Fit F (𝒢.g (i + D * j)) (B1 * S ^ D)) (hf2 : Fit F (𝒢.g (i + D * j)) (B2 * S ^ D))
    {x : Var R} {y : Var K} (hx : VRel F x y)
    {s : Scalar R} {t : Scalar K} (h : SRel F (𝒢.g j) S s t) :
    Go.Rel (ConRel F (𝒢.g (i + D * j)) (B1 * S ^ D) (B2 * S ^ D)) (c.substitute x s)
      (d.substitute y t) := by
  match c, d, hc with
  | .s _, .s z, hc =>
    exact Go.Rel.bind (SConRel.substitute hS hfS hc
      (hD [z.lhs] List.mem_cons_self z.lhs List.mem_cons_self)
      (hD' [z.rhs] List.mem_cons_self z.rhs List.mem_cons_self) hD1 hf1 hf2 hx h)
      (fun _ _ h => Go.rel_pure (a := Con.s _) (b := Con.s _) h)
  | .v _, .v z, hc =>
    have e : ∀ {a : Vec K} {Q : Scalar K → Prop}, (∀ r ∈ (Expr.v a).grid, ∀ s ∈ r, Q s) →
        ∀ s ∈ a.entries, Q s := fun h s hs => h [s] (List.mem_map_of_mem hs) s List.mem_cons_self
    exact Go.Rel.bind (Go.Rel.bind (VConRel.check hc) (fun _ _ _ =>
        Go.Rel.bind (VecRel.substitute hB1 hS hfS hc.1 (e hD) hD1 hf1 hx h) (fun _ _ h1 =>
        Go.Rel.bind (VecRel.substitute hB2 hS hfS hc.2.1 (e hD') hD1 hf2 hx h) (fun _ _ h2 =>
          Go.rel_pure (A := VConRel _ _ _ _) ⟨h1, h2, hc.2.2⟩))))
      (fun _ _ h => Go.rel_pure (a := Con.v _) (b := Con.v _) h)
  | .m _, .m z, hc =>
    exact Go.Rel.bind (Go.Rel.bind (MConRel.check hc) (fun _ _ _ =>
        Go.Rel.bind (MatRel.substitute hB1 hS hfS hc.1 hD hD1 hf1 hx h) (fun _ _ h1 =>
        Go.Rel.bind (MatRel.substitute hB2 hS hfS hc.2.1 hD' hD1 hf2 hx h) (fun _ _ h2 =>
          Go.rel_pure (A := MConRel _ _ _ _) ⟨h1, h2, hc.2.2⟩))))
      (fun _ _ h => Go.rel_pure (a := Con.m _) (b := Con.m _) h)

theorem anyImplies_rel (hf : Fit F (𝒢.g i) (B + B + B)) (hC : Fit F (𝒢.g j) C)
    (hfC : Fit F (𝒢.g (i + j)) ((B + B + B) * C)) (hC0 : 0 ≤ C) (hB : 0 ≤ B)
    {o : SCon R} {p : SCon K} (h' : SConRel F (𝒢.g i) B B o p)
    (hp : p.Divides (fun q => q ≠ 0 ∧ q⁻¹ ∈ 𝒢.g j ∧ |q⁻¹| ≤ C))
    {l : List (Go (SCon R))} {l' : List (Go (SCon K))}
    (hl : List.Forall₂ (fun x y => Go.Rel (SConRel F (𝒢.g i) B B) x y ∧
      Go.Post y (SCon.Divides (fun q => q ≠ 0 ∧ q⁻¹ ∈ 𝒢.g j ∧ |q⁻¹| ≤ C))) l l') :
    Go.Rel (· = ·) (anyImplies o l) (anyImplies p l') := by
  induction hl with
  | nil => exact Go.rel_pure rfl
  | cons hx _ ih =>
    refine Go.Rel.bind (hx.1.post hx.2) (fun c d hcd => Go.Rel.bind
      (SConRel.impliesS hf hC hfC hC0 hB hcd.1 h' hcd.2 hp) ?_)
    rintro b _ rfl
    exact Go.rel_ite Iff.rfl (fun _ => Go.rel_pure rfl) (fun _ => ih)

/-- Every entry of `d` divides by a number that satisfies `Q`. -/
def Con.Divides (Q : K → Prop) : Con K → Prop
  | .s c => c.Divides Q
  | .v c => ∀ n, c.len = .ok n → ∀ k < n, Go.Post (c.atVec k) (SCon.Divides Q)
  | .m c => ∀ d, c.dims = .ok d → ∀ ij ∈ indexPairs d, Go.Post (c.at ij.1 ij.2) (SCon.Divides Q)

/-- `ImpliesThisIsAlsoSatisfied` on floats does what it does on exact numbers, provided that the
reciprocals of the coefficients are representable. -/
theorem ConRel.implies (hf : Fit F (𝒢.g i) (B + B + B)) (hC : Fit F (𝒢.g j) C)
    (hfC : Fit F (𝒢.g (i + j)) ((B + B + B) * C)) (hC0 : 0 ≤ C) (hB : 0 ≤ B)
    {c o : Con R} {d p : Con K} (h : ConRel F (𝒢.g i) B B c d) (h' : ConRel F (𝒢.g i) B B o p)
    (hd : d.Divides (fun q => q ≠ 0 ∧ q⁻¹ ∈ 𝒢.g j ∧ |q⁻¹| ≤ C))
    (hp : p.Divides (fun q => q ≠ 0 ∧ q⁻¹ ∈ 𝒢.g j ∧ |q⁻¹| ≤ C)) :
    Go.Rel (· = ·) (c.implies o) (d.implies p) := by
  match c, d, h with
  | .s c, .s d, h =>
    match o, p, h' with
    | .s _, .s _, h' => exact SConRel.impliesS hf hC hfC hC0 hB h h' hd hp
    | .v _, .v _, h' =>
      exact Go.Rel.bind (SConRel.check h) (fun _ _ _ => Go.Rel.bind (ConRel.check h') (fun _ _ _ =>
        Go.Rel.bind (SConRel.simplify hf h) (fun _ _ _ => Go.rel_pure rfl)))
    | .m _, .m _, h' =>
      exact Go.Rel.bind (SConRel.check h) (fun _ _ _ => Go.Rel.bind (ConRel.check h') (fun _ _ _ =>
        Go.Rel.bind (SConRel.simplify hf h) (fun _ _ _ => Go.rel_pure rfl)))
  | .v c, .v d, h =>
    refine Go.Rel.bind (VConRel.check h) (fun _ _ _ => Go.Rel.bind (ConRel.check h') (fun _ _ _ => ?_))
    match o, p, h' with
    | .s _, .s _, h' =>
      refine Go.Rel.bind ((VConRel.len h).post (fun a h => h)) ?_
      rintro n _ ⟨rfl, hn⟩
      refine anyImplies_rel hf hC hfC hC0 hB h' hp (forall₂_map (A := fun (a b : ℕ) => a = b ∧ a < n)
        (List.forall₂_same.2 (fun _ hk => ⟨rfl, List.mem_range.1 hk⟩)) ?_)
      rintro k _ ⟨rfl, hk⟩
      exact ⟨VConRel.atVec h k, hd n hn k hk⟩
    | .v _, .v _, h' => exact Go.rel_pure rfl
    | .m _, .m _, h' => exact Go.rel_pure rfl
  | .m c, .m d, h =>
    refine Go.Rel.bind (MConRel.check h) (fun _ _ _ => Go.Rel.bind (ConRel.check h') (fun _ _ _ => ?_))
    match o, p, h' with
    | .s _, .s _, h' =>
      refine Go.Rel.bind ((MConRel.dims h).post (fun a h => h)) ?_
      rintro n _ ⟨rfl, hn⟩
      refine anyImplies_rel hf hC hfC hC0 hB h' hp
        (forall₂_map (A := fun (a b : ℕ × ℕ) => a = b ∧ a ∈ indexPairs n)
        (List.forall₂_same.2 (fun _ hk => ⟨rfl, hk⟩)) ?_)
      rintro k _ ⟨rfl, hk⟩
      exact ⟨MConRel.at h _ _, hd n hn k hk⟩
    | .v _, .v _, h' => exact Go.rel_pure rfl
    | .m _, .m _, h' => exact Go.rel_pure rfl

/-- Compiling a constraint on floats does what it does on exact numbers. -/
theorem ConRel.compile {c : Con R} {d : Con K} (h : ConRel F G B1 B2 c d) :
    Go.Rel (List.Forall₂ (SConRel F G B1 B2)) c.compile d.compile := by
  match c, d, h with
  | .s _, .s _, h => exact Go.rel_pure (List.Forall₂.cons h List.Forall₂.nil)
  | .v c, .v d, h =>
    refine Go.Rel.bind (VConRel.len h) ?_
    rintro n _ rfl
    exact Go.rel_mapM_same _ (fun k => VConRel.atVec h k)
  | .m c, .m d, h =>
    refine Go.Rel.bind (MConRel.dims h) ?_
    rintro n _ rfl
    exact Go.rel_mapM_same _ (fun k => MConRel.at h _ _)

/-- `CompileConstraintsIntoScalarConstraints` on floats does what it does on exact numbers. -/
theorem compileAll_rel {l : List (Con R)} {l' : List (Con K)}
    (h : List.Forall₂ (ConRel F G B1 B2) l l') :
    Go.Rel (List.Forall₂ (SConRel F G B1 B2)) (compileAll l) (compileAll l') :=
  Go.Rel.bind (Go.rel_mapM h (fun _ _ h => ConRel.compile h)) (fun _ _ h =>
    Go.rel_pure (forall₂_flatten h))

end Verif
