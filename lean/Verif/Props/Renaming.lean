import Verif.Lemmas.HomProg
import Mathlib.GroupTheory.GroupAction.MultipleTransitivity

/-!
# C86: it does not matter which variables a program is about

The library looks at a variable only to find whether it is the same as another one: by ID, by ID and environment, or,
where a variable is the key of a Go map, by all fields.  Put other variables in the place of those of a program, in
such a way that equal ones stay equal and different ones different, and every result is the old one with the new
variables in the place of the old ones; every panic is the same.

`renaming_binary` to `renaming_arrayConProgram` are about any such replacement, `relabel_renames` says which changes of
IDs, environments, types and names qualify, and `renaming_exists` that any list of variables can be exchanged for any
other list of the same length.  The hypotheses are needed: `renaming_merge_false`, `renaming_keys_false`,
`renaming_variables_false`,
`renaming_implies_false`.
-/

namespace Verif

variable {R : Type}

/-! ## Other variables in the place of the old ones -/

/-- The numbers stay, `σ v` is put in the place of each variable `v`. -/
def Recode.ofVar (σ : Var R → Var R) : Recode R R := ⟨fun x => x, σ⟩

def Scalar.rename (σ : Var R → Var R) (e : Scalar R) : Scalar R := e.mapNum (.ofVar σ)
def Vec.rename (σ : Var R → Var R) (e : Vec R) : Vec R := e.mapNum (.ofVar σ)
def Mat.rename (σ : Var R → Var R) (e : Mat R) : Mat R := e.mapNum (.ofVar σ)
def Expr.rename (σ : Var R → Var R) (e : Expr R) : Expr R := e.mapNum (.ofVar σ)
def SubMap.rename (σ : Var R → Var R) (sm : SubMap R) : SubMap R := sm.mapNum (.ofVar σ)
def SCon.rename (σ : Var R → Var R) (c : SCon R) : SCon R := c.mapNum (.ofVar σ)
def VCon.rename (σ : Var R → Var R) (c : VCon R) : VCon R := c.mapNum (.ofVar σ)
def Con.rename (σ : Var R → Var R) (c : Con R) : Con R := c.mapNum (.ofVar σ)
def Prog.rename (σ : Var R → Var R) (p : Prog R) : Prog R := p.mapNum (.ofVar σ)
def AProg.rename (σ : Var R → Var R) {r c : ℕ} (p : AProg R r c) : AProg R r c := p.mapNum (.ofVar σ)
def ConProg.rename (σ : Var R → Var R) (p : ConProg R) : ConProg R := p.mapNum (.ofVar σ)
def AConProg.rename (σ : Var R → Var R) {r c : ℕ} (p : AConProg R r c) : AConProg R r c := p.mapNum (.ofVar σ)

/-- What `rename` does, written out. -/
theorem rename_scalar (σ : Var R → Var R) (c : R) (v : Var R) (es : List ℤ) (vs : List (Var R)) (l : List (Mono R)) :
    (Scalar.k c).rename σ = .k c ∧ (Scalar.var v).rename σ = .var (σ v) ∧
    (Scalar.mono ⟨c, es, vs⟩).rename σ = .mono ⟨c, es, vs.map σ⟩ ∧
    (Scalar.poly ⟨l⟩).rename σ = .poly ⟨l.map fun m => ⟨m.coeff, m.exps, m.vars.map σ⟩⟩ := ⟨rfl, rfl, rfl, rfl⟩

theorem rename_array (σ : Var R → Var R) (a : Vec R) (b : Mat R) :
    (a.rename σ).entries = a.entries.map (Scalar.rename σ) ∧
    (b.rename σ).entries = b.entries.map (List.map (Scalar.rename σ)) := by
  constructor
  · cases a <;> simp only [Vec.rename, Vec.mapNum, Vec.entries, List.map_map] <;> exact List.map_congr_left fun _ _ => rfl
  · cases b <;> simp only [Mat.rename, Mat.mapNum, Mat.entries, List.map_map] <;> refine List.map_congr_left fun _ _ => ?_ <;>
      simp only [Function.comp_apply, List.map_map] <;> exact List.map_congr_left fun _ _ => rfl

section
variable [GoNum R]

/-- `σ` keeps apart what the library can tell apart, and keeps valid bounds valid. -/
structure Renames (σ : Var R → Var R) : Prop where
  id : ∀ v w, (σ v).id = (σ w).id ↔ v.id = w.id
  env : ∀ v w, v.id = w.id → ((σ v).env = (σ w).env ↔ v.env = w.env)
  valid : ∀ v, GoNum.le (σ v).upper (σ v).lower = GoNum.le v.upper v.lower

/-- Variables are equal in all fields (`==` of Go) exactly if their replacements are. -/
def KeepsKeys (σ : Var R → Var R) : Prop := ∀ v w, (σ v).keyEq (σ w) = v.keyEq w

variable {σ : Var R → Var R}

/-- The hypotheses of the structural lemmas. -/
def Renames.hom (h : Renames σ) : NumHom R R where
  f := .ofVar σ
  zero := rfl
  one := rfl
  add _ _ := rfl
  mul _ _ := rfl
  sub _ _ := rfl
  neg _ := rfl
  ofInt _ := rfl
  feq _ _ := rfl
  lt _ _ := rfl
  le _ _ := rfl
  sameId := h.id
  sameVar v w := by
    constructor
    · rintro ⟨a, b⟩
      have hv := (h.id v w).mp a
      exact ⟨hv, (h.env v w hv).mp b⟩
    · rintro ⟨a, b⟩
      exact ⟨(h.id v w).mpr a, (h.env v w a).mpr b⟩
  varCheck v := by
    change (if GoNum.le (σ v).upper (σ v).lower then _ else _) = (if GoNum.le v.upper v.lower then _ else _)
    rw [h.valid]

theorem go_same {α : Type} {x y : Go α} (h : x = (fun a => a) <$> y) : x = y := by
  rw [h]
  exact id_map y

theorem go_same1 {α : Type} {x y : Go (List α)} (h : x = List.map (fun a => a) <$> y) : x = y := by
  rw [h, show (List.map (fun a : α => a)) = id from List.map_id_fun]
  exact id_map y

theorem go_same2 {α : Type} {x y : Go (List (List α))} (h : x = List.map (List.map (fun a => a)) <$> y) : x = y := by
  rw [show (List.map (fun a : α => a)) = id from List.map_id_fun] at h
  exact go_same1 h

/-! ## Expressions -/

/-- `Plus`, `Minus`, `Multiply`, `Comparison` of any expressions. -/
theorem renaming_binary (h : Renames σ) (a b : Expr R) (sn : Sense) :
    (a.rename σ).plus (b.rename σ) = Expr.rename σ <$> a.plus b ∧
    (a.rename σ).minus (b.rename σ) = Expr.rename σ <$> a.minus b ∧
    (a.rename σ).mul (b.rename σ) = Expr.rename σ <$> a.mul b ∧
    (a.rename σ).comparison (b.rename σ) sn = Con.rename σ <$> a.comparison b sn :=
  ⟨h.hom.expr_plus a b, h.hom.expr_minus a b, h.hom.expr_mul a b, h.hom.comparison a b sn⟩

/-- `Power`, `Transpose`, `AsSimplifiedExpression`, `At`. -/
theorem renaming_unary (h : Renames σ) (a : Expr R) (n i j : ℤ) :
    (a.rename σ).power n = Expr.rename σ <$> a.power n ∧
    (a.rename σ).transpose = Expr.rename σ <$> a.transpose ∧
    (a.rename σ).asSimplified = Expr.rename σ <$> a.asSimplified ∧
    (a.rename σ).at i j = Scalar.rename σ <$> a.at i j :=
  ⟨h.hom.expr_power a n, h.hom.expr_transpose a, h.hom.expr_asSimplified a, h.hom.expr_at a i j⟩

/-- `HStack`, `VStack`. -/
theorem renaming_stack (h : Renames σ) (l : List (Expr R)) :
    hstack (l.map (Expr.rename σ)) = Expr.rename σ <$> hstack l ∧
    vstack (l.map (Expr.rename σ)) = Expr.rename σ <$> vstack l :=
  ⟨h.hom.hstack l, h.hom.vstack l⟩

/-- `Substitute`, `DerivativeWrt`. -/
theorem renaming_calculus (h : Renames σ) (a : Expr R) (v : Var R) (s : Scalar R) :
    (a.rename σ).substitute (σ v) (s.rename σ) = Expr.rename σ <$> a.substitute v s ∧
    (a.rename σ).derivative (σ v) = Expr.rename σ <$> a.derivative v :=
  ⟨h.hom.expr_substitute a v s, h.hom.expr_derivative a v⟩

/-- `SubstituteAccordingTo`: variables are looked up among the keys of a Go map. -/
theorem renaming_map (h : Renames σ) (hk : KeepsKeys σ) (a : Expr R) (sm : SubMap R) :
    (a.rename σ).substMap (sm.rename σ) = Expr.rename σ <$> a.substMap sm :=
  h.hom.expr_substMap hk a sm

/-- `Check`, `Dims`, `Degree`, `IsLinear`, `Variables`. -/
theorem renaming_queries (h : Renames σ) (a : Expr R) :
    (a.rename σ).check = a.check ∧ (a.rename σ).dims = a.dims ∧ (a.rename σ).degree = a.degree ∧
    (a.rename σ).isLinear = a.isLinear ∧ (a.rename σ).variables = List.map σ <$> a.variables :=
  ⟨h.hom.expr_check a, h.hom.expr_dims a, h.hom.expr_degree a, h.hom.expr_isLinear a, h.hom.expr_variables a⟩

/-- `Constant` and `LinearCoeff`: the same numbers. -/
theorem renaming_coeffs (h : Renames σ) (x : Scalar R) (y : Vec R) (z : Mat R) (w : List (List (Var R))) :
    (x.rename σ).constant = x.constant ∧ (x.rename σ).linearCoeff (w.map (·.map σ)) = x.linearCoeff w ∧
    (y.rename σ).constant = y.constant ∧ (y.rename σ).linearCoeff (w.map (·.map σ)) = y.linearCoeff w ∧
    (z.rename σ).constant = z.constant :=
  ⟨go_same (h.hom.constant x), go_same1 (h.hom.linearCoeff x w), go_same1 (h.hom.vec_constant y),
    go_same2 (h.hom.vec_linearCoeff y w), go_same2 (h.hom.mat_constant z)⟩

/-- The texts, if the names stay. -/
theorem renaming_text (h : Renames σ) (hn : ∀ v, (σ v).name = v.name) (fmt : R → List Char) (a : Expr R) (c : SCon R) :
    (a.rename σ).chars fmt = a.chars fmt ∧ (c.rename σ).chars fmt = c.chars fmt :=
  ⟨h.hom.expr_chars fmt hn a, h.hom.scon_chars fmt hn c⟩

/-! ## Constraints -/

/-- `Check`, `IsLinear`, `AsSimplifiedConstraint`, `Substitute`. -/
theorem renaming_constraint (h : Renames σ) (c : Con R) (v : Var R) (s : Scalar R) :
    (c.rename σ).check = c.check ∧ (c.rename σ).isLinear = c.isLinear ∧
    (c.rename σ).simplify = Con.rename σ <$> c.simplify ∧
    (c.rename σ).substitute (σ v) (s.rename σ) = Con.rename σ <$> c.substitute v s :=
  ⟨h.hom.con_check c, h.hom.con_isLinear c, h.hom.con_simplify c, h.hom.con_substitute c v s⟩

/-- The linear representations are the same matrices, and `ScaleBy`. -/
theorem renaming_linear (h : Renames σ) (c : SCon R) (d : VCon R) (w : List (List (Var R))) (x : R) :
    (c.rename σ).linearIneq (w.map (·.map σ)) = c.linearIneq w ∧
    (c.rename σ).linearEq (w.map (·.map σ)) = c.linearEq w ∧
    (d.rename σ).linearIneq (w.map (·.map σ)) = d.linearIneq w ∧
    (d.rename σ).linearEq (w.map (·.map σ)) = d.linearEq w ∧
    (c.rename σ).scaleBy x = SCon.rename σ <$> c.scaleBy x := by
  have e1 : (List.map (fun a : R => a)) = id := List.map_id_fun
  have e2 : (List.map (id : List R → List R)) = id := List.map_id_fun
  have i1 := h.hom.scon_linearIneq c w
  have i2 := h.hom.scon_linearEq c w
  have i3 := h.hom.vcon_linearIneq d w
  have i4 := h.hom.vcon_linearEq d w
  change _ = Prod.map (List.map (fun a : R => a)) (fun a : R => a) <$> _ at i1
  change _ = Prod.map (List.map (fun a : R => a)) (fun a : R => a) <$> _ at i2
  change _ = Prod.map (List.map (List.map (fun a : R => a))) (List.map (fun a : R => a)) <$> _ at i3
  change _ = Prod.map (List.map (List.map (fun a : R => a))) (List.map (fun a : R => a)) <$> _ at i4
  rw [e1] at i1 i2
  rw [e1, e2] at i3 i4
  exact ⟨i1.trans (id_map _), i2.trans (id_map _), i3.trans (id_map _), i4.trans (id_map _), h.hom.scon_scaleBy c x⟩

/-- `CompileConstraintsIntoScalarConstraints`. -/
theorem renaming_compile (h : Renames σ) (l : List (Con R)) :
    compileAll (l.map (Con.rename σ)) = List.map (SCon.rename σ) <$> compileAll l :=
  h.hom.compileAll l

/-- `Variables`, `SubstituteAccordingTo`, `IsNonnegativityConstraint`, `ImpliesThisIsAlsoSatisfied` of constraints: they
tell variables apart by all their fields. -/
theorem renaming_constraintKeys (h : Renames σ) (hk : KeepsKeys σ) (c o : Con R) (d : SCon R) (sm : SubMap R) :
    (c.rename σ).variables = List.map σ <$> c.variables ∧
    (c.rename σ).substMap (sm.rename σ) = Con.rename σ <$> c.substMap sm ∧
    (d.rename σ).isNonneg = d.isNonneg ∧ (c.rename σ).implies (o.rename σ) = c.implies o := by
  have hs : ∀ c : SCon R, c.Coeffs (fun _ => True) := fun _ _ _ _ _ _ _ _ _ => trivial
  have hc : ∀ c : Con R, c.Coeffs (fun _ => True) := by
    intro c
    cases c with
    | s c => exact hs c
    | v c => exact fun _ _ _ => hs _
    | m c => exact fun _ _ _ _ => hs _
  exact ⟨h.hom.con_variables hk c, h.hom.con_substMap hk c sm, h.hom.scon_isNonneg hk d,
    NumHom.con_implies (h := h.hom) (P := fun _ => True) (fun _ _ => rfl) hk (hc c) (hc o)⟩

/-! ## Programs -/

theorem renaming_program (h : Renames σ) (hk : KeepsKeys σ) (p : Prog R) :
    (p.rename σ).run = Scalar.rename σ <$> p.run := h.hom.prog_run hk p

theorem renaming_arrayProgram (h : Renames σ) (hk : KeepsKeys σ) {r c : ℕ} (p : AProg R r c) :
    (p.rename σ).run = Expr.rename σ <$> p.run := h.hom.aprog_run hk p

theorem renaming_conProgram (h : Renames σ) (hk : KeepsKeys σ) (p : ConProg R) :
    (p.rename σ).run = SCon.rename σ <$> p.run := h.hom.conProg_run hk p

theorem renaming_arrayConProgram (h : Renames σ) (hk : KeepsKeys σ) {r c : ℕ} (p : AConProg R r c) :
    (p.rename σ).run = Con.rename σ <$> p.run := h.hom.aconProg_run hk p

end

/-! ## Which replacements qualify -/

/-- Other IDs, and for the variables of each ID other environments, types and names. -/
def Var.relabel (ids : ℕ → ℕ) (envs types : ℕ → ℕ → ℕ) (names : ℕ → String → String) (v : Var R) : Var R :=
  ⟨ids v.id, v.lower, v.upper, types v.id v.vtype, names v.id v.name, envs v.id v.env⟩

/-- IDs and environments must stay different; names and types are free, unless variables are keys of maps. -/
theorem relabel_renames [GoNum R] {ids : ℕ → ℕ} {envs types : ℕ → ℕ → ℕ} {names : ℕ → String → String}
    (hi : Function.Injective ids) (he : ∀ i, Function.Injective (envs i)) :
    Renames (Var.relabel (R := R) ids envs types names) ∧
    ((∀ i, Function.Injective (types i)) → (∀ i, Function.Injective (names i)) →
      KeepsKeys (Var.relabel (R := R) ids envs types names)) := by
  refine ⟨⟨fun v w => hi.eq_iff, fun v w hvw => ?_, fun _ => rfl⟩, fun ht hn v w => ?_⟩
  · change envs v.id v.env = envs w.id w.env ↔ _
    rw [hvw]
    exact (he _).eq_iff
  · rw [Var.keyEq, Var.keyEq]
    by_cases hvw : v.id = w.id
    · simp only [Var.relabel, hvw, (he _).eq_iff, (ht _).eq_iff, (hn _).eq_iff, decide_true]
    · have : ids v.id ≠ ids w.id := fun h => hvw (hi h)
      simp [Var.relabel, hvw, this]

/-- The bounds are free too, as long as valid ones stay valid and no map has variables as keys. -/
theorem bounds_renames [GoNum R] {lo hi : Var R → R} (h : ∀ v, GoNum.le (hi v) (lo v) = GoNum.le v.upper v.lower) :
    Renames (fun v : Var R => { v with lower := lo v, upper := hi v }) :=
  ⟨fun _ _ => Iff.rfl, fun _ _ _ => Iff.rfl, h⟩

/-- Any variables with different IDs can be exchanged for any others with different IDs and the same bounds. -/
theorem renaming_exists [GoNum R] {n : ℕ} {vs ws : Fin n → Var R} (hv : Function.Injective fun i => (vs i).id)
    (hw : Function.Injective fun i => (ws i).id)
    (hb : ∀ i, (ws i).lower = (vs i).lower ∧ (ws i).upper = (vs i).upper) :
    ∃ σ : Var R → Var R, Renames σ ∧ KeepsKeys σ ∧ ∀ i, σ (vs i) = ws i := by
  obtain ⟨g, hg⟩ := (Equiv.Perm.isMultiplyPretransitive ℕ n).exists_smul_eq ⟨_, hv⟩ ⟨_, hw⟩
  have hg' : ∀ i, g (vs i).id = (ws i).id := fun i => DFunLike.congr_fun hg i
  classical
  let at' : ℕ → Option (Fin n) := fun k => if h : ∃ i, (vs i).id = k then some h.choose else none
  have hat : ∀ i, at' (vs i).id = some i := by
    intro i
    have h : ∃ j, (vs j).id = (vs i).id := ⟨i, rfl⟩
    simp only [at', dif_pos h]
    rw [hv h.choose_spec]
  refine ⟨Var.relabel g
    (fun k => match at' k with | some i => Equiv.swap (vs i).env (ws i).env | none => id)
    (fun k => match at' k with | some i => Equiv.swap (vs i).vtype (ws i).vtype | none => id)
    (fun k => match at' k with | some i => Equiv.swap (vs i).name (ws i).name | none => id), ?_⟩
  have key := relabel_renames (R := R) (ids := g)
    (envs := fun k => match at' k with | some i => Equiv.swap (vs i).env (ws i).env | none => id)
    (types := fun k => match at' k with | some i => Equiv.swap (vs i).vtype (ws i).vtype | none => id)
    (names := fun k => match at' k with | some i => Equiv.swap (vs i).name (ws i).name | none => id)
    g.injective (by intro k; split; exacts [Equiv.injective _, Function.injective_id])
  refine ⟨key.1, key.2 (by intro k; split; exacts [Equiv.injective _, Function.injective_id])
    (by intro k; split; exacts [Equiv.injective _, Function.injective_id]), fun i => ?_⟩
  obtain ⟨h1, h2⟩ := hb i
  rw [Var.relabel, hat i, hg', ← h1, ← h2]
  simp only [Equiv.swap_apply_left]

/-! ## The hypotheses are needed, and can be met -/

/-- Variables `x`, `y`, `z`. -/
def renX : Var ℚ := ⟨1, 0, 1, 0, "x", 0⟩
def renY : Var ℚ := ⟨2, 0, 1, 0, "y", 0⟩
def renZ : Var ℚ := ⟨9, 0, 1, 1, "z", 4⟩

/-- With the same ID for both variables, `x + y` becomes one monomial, as `x + x` is: the replacement of the sum would
have two. -/
theorem renaming_merge_false : ¬ ∀ (σ : Var ℚ → Var ℚ) (a b : Expr ℚ), (∀ v, (σ v).check = v.check) →
    (a.rename σ).plus (b.rename σ) = Expr.rename σ <$> a.plus b := by
  intro h
  have h' := h (fun v => { v with id := 1 }) (.s (.var renX)) (.s (.var renY)) (fun _ => rfl)
  revert h'
  decide +kernel

/-- The name is part of the key of a substitution map: with the names forgotten, but IDs and environments kept, a map
with a key of another name has a value for `x`. -/
theorem renaming_keys_false : ¬ ∀ (σ : Var ℚ → Var ℚ) (a : Expr ℚ) (sm : SubMap ℚ), Renames σ →
    (a.rename σ).substMap (sm.rename σ) = Expr.rename σ <$> a.substMap sm := by
  intro h
  have h' := h (fun v => { v with name := "" }) (.s (.var renX)) [({ renX with name := "w" }, .k 3)]
    ⟨fun _ _ => Iff.rfl, fun _ _ _ => Iff.rfl, fun _ => rfl⟩
  revert h'
  decide +kernel

/-- `Variables` of a constraint lists a variable twice if it occurs with two names, and once if the names are
forgotten. -/
theorem renaming_variables_false : ¬ ∀ (σ : Var ℚ → Var ℚ) (c : Con ℚ), Renames σ →
    (c.rename σ).variables = List.map σ <$> c.variables := by
  intro h
  have h' := h (fun v => { v with name := "" }) (.s ⟨.var renX, .var { renX with name := "w" }, .le⟩)
    ⟨fun _ _ => Iff.rfl, fun _ _ _ => Iff.rfl, fun _ => rfl⟩
  revert h'
  decide +kernel

/-- `ImpliesThisIsAlsoSatisfied` counts the variables of the constraints: `x · x⁰ ≤ -1` is taken to have two variables
if its factors have two names. -/
theorem renaming_implies_false : ¬ ∀ (σ : Var ℚ → Var ℚ) (c o : Con ℚ), Renames σ →
    (c.rename σ).implies (o.rename σ) = c.implies o := by
  intro h
  have h' := h (fun v => { v with name := "" })
    (.s ⟨.mono ⟨1, [1, 0], [renX, { renX with name := "w" }]⟩, .k (-1), .le⟩) (.s ⟨.var renX, .k 2, .le⟩)
    ⟨fun _ _ => Iff.rfl, fun _ _ _ => Iff.rfl, fun _ => rfl⟩
  revert h'
  decide +kernel

/-- `x` and `y` can be exchanged for `z` and `x`, ... -/
example : ∃ σ : Var ℚ → Var ℚ, Renames σ ∧ KeepsKeys σ ∧ σ renX = renZ ∧ σ renY = renX := by
  obtain ⟨σ, h1, h2, h3⟩ := renaming_exists (vs := ![renX, renY]) (ws := ![renZ, renX])
    (by decide) (by decide) (by decide +kernel)
  exact ⟨σ, h1, h2, h3 0, h3 1⟩

/-- ... and the sum of `z` and `x` is that of `x` and `y`, with `z` for `x` and `x` for `y`; the order is kept, whatever
the IDs are. -/
example : (Expr.s (.var renX)).plus (.s (.var renY)) = .ok (.s (.poly ⟨[⟨1, [1], [renX]⟩, ⟨1, [1], [renY]⟩]⟩)) ∧
    (Expr.s (.var renZ)).plus (.s (.var renX)) = .ok (.s (.poly ⟨[⟨1, [1], [renZ]⟩, ⟨1, [1], [renX]⟩]⟩)) := by
  decide +kernel

/-- A program, and the same about other variables. -/
example (σ : Var ℚ → Var ℚ) (hx : σ renX = renZ) (hy : σ renY = renX) :
    (Prog.deriv (.mul (.plus (.var renX) (.k 2)) (.var renY)) renX).rename σ =
      .deriv (.mul (.plus (.var renZ) (.k 2)) (.var renX)) renZ := by
  rw [← hx, ← hy]
  rfl

example : (Prog.deriv (.mul (.plus (.var renX) (.k 2)) (.var renY)) renX).run.isOk = true ∧
    (Prog.deriv (.mul (.plus (.var renZ) (.k 2)) (.var renX)) renZ).run.isOk = true := by decide +kernel

end Verif
