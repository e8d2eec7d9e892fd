import Verif.Model.Constraint

/-!
# Maps of numbers and of variables that respect the operations

`NumHom R S` is a map of the numbers `R` to the numbers `S` that respects every operation of `GoNum` but
division, together with a map of variables that keeps equal what the library finds equal and apart what it finds
different.  Every function of the library commutes with it: the library looks at numbers only through these
operations and at variables only through these comparisons.  The proofs are structural; nothing is assumed of `R`
and `S`.
-/

namespace Verif

set_option linter.unusedSimpArgs false

variable {R S : Type}

/-- Other numbers and other variables: what to put in place of each of them. -/
structure Recode (R S : Type) where
  num : R → S
  var : Var R → Var S

instance : CoeFun (Recode R S) (fun _ => R → S) := ⟨Recode.num⟩

/-- Only the numbers are replaced; of a variable these are its bounds. -/
def Recode.ofNum (f : R → S) : Recode R S :=
  ⟨f, fun v => ⟨v.id, f v.lower, f v.upper, v.vtype, v.name, v.env⟩⟩

/-- A map that respects the operations of `float64` (division apart) and the comparisons of variables: by ID, and by
ID and environment. -/
structure NumHom (R S : Type) [GoNum R] [GoNum S] where
  f : Recode R S
  zero : f GoNum.zero = GoNum.zero
  one : f GoNum.one = GoNum.one
  add : ∀ a b, f (GoNum.add a b) = GoNum.add (f a) (f b)
  mul : ∀ a b, f (GoNum.mul a b) = GoNum.mul (f a) (f b)
  sub : ∀ a b, f (GoNum.sub a b) = GoNum.sub (f a) (f b)
  neg : ∀ a, f (GoNum.neg a) = GoNum.neg (f a)
  ofInt : ∀ k, f (GoNum.ofInt k) = GoNum.ofInt k
  feq : ∀ a b, GoNum.feq (f a) (f b) = GoNum.feq a b
  lt : ∀ a b, GoNum.lt (f a) (f b) = GoNum.lt a b
  le : ∀ a b, GoNum.le (f a) (f b) = GoNum.le a b
  sameId : ∀ v w : Var R, (f.var v).id = (f.var w).id ↔ v.id = w.id
  sameVar : ∀ v w : Var R, ((f.var v).id = (f.var w).id ∧ (f.var v).env = (f.var w).env) ↔ (v.id = w.id ∧ v.env = w.env)
  varCheck : ∀ v : Var R, (f.var v).check = v.check

/-- Variables are equal as keys of a Go map exactly if their images are. -/
def NumHom.Keys [GoNum R] [GoNum S] (h : NumHom R S) : Prop :=
  ∀ v w : Var R, (h.f.var v).keyEq (h.f.var w) = v.keyEq w

/-- Variables keep their names. -/
def NumHom.Names [GoNum R] [GoNum S] (h : NumHom R S) : Prop := ∀ v : Var R, (h.f.var v).name = v.name

/-! ## The map on expressions -/

def Var.mapNum (f : Recode R S) (v : Var R) : Var S := f.var v

def Mono.mapNum (f : Recode R S) (m : Mono R) : Mono S := ⟨f m.coeff, m.exps, m.vars.map (Var.mapNum f)⟩

def Poly.mapNum (f : Recode R S) (p : Poly R) : Poly S := ⟨p.monos.map (Mono.mapNum f)⟩

def Scalar.mapNum (f : Recode R S) : Scalar R → Scalar S
  | .k c => .k (f c)
  | .var v => .var (v.mapNum f)
  | .mono m => .mono (m.mapNum f)
  | .poly p => .poly (p.mapNum f)

def SubMap.mapNum (f : Recode R S) (sm : SubMap R) : SubMap S :=
  sm.map (fun kv => (kv.1.mapNum f, kv.2.mapNum f))

/-! ## Lists and panics -/

section lists
variable {α β γ δ : Type}

theorem go_mapM {F : α → Go β} {G : γ → Go δ} {a : α → γ} {b : β → δ} (h : ∀ x, G (a x) = b <$> F x)
    (l : List α) : (l.map a).mapM G = List.map b <$> l.mapM F := by
  induction l with
  | nil => rfl
  | cons x l ih =>
    rw [List.map_cons, List.mapM_cons, List.mapM_cons, ih, h]
    simp

theorem go_mapM' {F : α → Go β} {G : α → Go δ} {b : β → δ} (h : ∀ x, G x = b <$> F x)
    (l : List α) : l.mapM G = List.map b <$> l.mapM F := by
  simpa using go_mapM (a := id) h l

theorem go_forM {F : α → Go Unit} {G : γ → Go Unit} {a : α → γ} (h : ∀ x, G (a x) = F x)
    (l : List α) : (l.map a).forM G = l.forM F := by
  induction l with
  | nil => rfl
  | cons x l ih =>
    change ((G (a x)) >>= fun _ => (l.map a).forM G) = ((F x) >>= fun _ => l.forM F)
    rw [ih, h]

theorem go_foldlM {F : β → α → Go β} {G : δ → γ → Go δ} {a : α → γ} {b : β → δ}
    (h : ∀ s x, G (b s) (a x) = b <$> F s x) (l : List α) (s : β) :
    (l.map a).foldlM G (b s) = b <$> l.foldlM F s := by
  induction l generalizing s with
  | nil => rfl
  | cons x l ih =>
    rw [List.map_cons, List.foldlM_cons, List.foldlM_cons, h]
    simp [ih]

theorem go_foldlM' {F : β → α → Go β} {G : δ → α → Go δ} {b : β → δ}
    (h : ∀ s x, G (b s) x = b <$> F s x) (l : List α) (s : β) :
    l.foldlM G (b s) = b <$> l.foldlM F s := by
  simpa using go_foldlM (a := id) h l s

theorem go_throw (b : α → β) (e : Err) : b <$> (throw e : Go α) = throw e := rfl

theorem go_throw' (b : α → β) (e : Err) : b <$> (Except.error e : Go α) = .error e := rfl

end lists

/-! ## Lists of variables -/

@[simp] theorem Mono.mapNum_coeff (f : Recode R S) (m : Mono R) : (m.mapNum f).coeff = f m.coeff := rfl
@[simp] theorem Mono.mapNum_exps (f : Recode R S) (m : Mono R) : (m.mapNum f).exps = m.exps := rfl
@[simp] theorem Mono.mapNum_vars (f : Recode R S) (m : Mono R) :
    (m.mapNum f).vars = m.vars.map (Var.mapNum f) := rfl
@[simp] theorem Poly.mapNum_monos (f : Recode R S) (p : Poly R) :
    (p.mapNum f).monos = p.monos.map (Mono.mapNum f) := rfl

@[simp] theorem Scalar.mapNum_k (f : Recode R S) (c : R) : (Scalar.k c).mapNum f = .k (f c) := rfl
@[simp] theorem Scalar.mapNum_var (f : Recode R S) (v : Var R) : (Scalar.var v).mapNum f = .var (v.mapNum f) := rfl
@[simp] theorem Scalar.mapNum_mono (f : Recode R S) (m : Mono R) : (Scalar.mono m).mapNum f = .mono (m.mapNum f) := rfl
@[simp] theorem Scalar.mapNum_poly (f : Recode R S) (p : Poly R) : (Scalar.poly p).mapNum f = .poly (p.mapNum f) := rfl

theorem map_modify_hom {α β : Type} (g : α → β) (F : α → α) (G : β → β) (h : ∀ x, G (g x) = g (F x)) (l : List α)
    (i : Nat) : (l.map g).modify i G = (l.modify i F).map g := by
  induction l generalizing i with
  | nil => cases i <;> rfl
  | cons x l ih =>
    cases i with
    | zero => simp [h]
    | succ i => simp [ih]

theorem map_eraseIdx_hom {α β : Type} (g : α → β) (l : List α) (i : Nat) :
    (l.map g).eraseIdx i = (l.eraseIdx i).map g := by
  induction l generalizing i with
  | nil => rfl
  | cons x l ih =>
    cases i with
    | zero => rfl
    | succ i => simp [ih]

namespace NumHom

variable [GoNum R] [GoNum S] (h : NumHom R S)

@[simp] theorem mapNum_id (v w : Var R) : (v.mapNum h.f).id = (w.mapNum h.f).id ↔ v.id = w.id := h.sameId v w

theorem findVar_hom (v : Var R) (l : List (Var R)) :
    findVar (v.mapNum h.f) (l.map (Var.mapNum h.f)) = findVar v l := by
  induction l with
  | nil => rfl
  | cons y l ih =>
    rw [List.map_cons, findVar, findVar, ih]
    simp only [h.mapNum_id]

theorem uniqueStep_hom (out : List (Var R)) (v : Var R) :
    uniqueStep (out.map (Var.mapNum h.f)) (v.mapNum h.f) = (uniqueStep out v).map (Var.mapNum h.f) := by
  rw [uniqueStep, uniqueStep, h.findVar_hom]
  cases findVar v out <;> simp

theorem uniqueVars_hom (l : List (Var R)) :
    uniqueVars (l.map (Var.mapNum h.f)) = (uniqueVars l).map (Var.mapNum h.f) := by
  have : ∀ (l out : List (Var R)), (l.map (Var.mapNum h.f)).foldl uniqueStep (out.map (Var.mapNum h.f)) =
      (l.foldl uniqueStep out).map (Var.mapNum h.f) := by
    intro l
    induction l with
    | nil => intro out; rfl
    | cons v l ih => intro out; rw [List.map_cons, List.foldl_cons, List.foldl_cons, h.uniqueStep_hom, ih]
  exact this l []

theorem unionOfVariables_hom (l : List (List (Var R))) :
    unionOfVariables (l.map (·.map (Var.mapNum h.f))) = (unionOfVariables l).map (Var.mapNum h.f) := by
  rw [unionOfVariables, unionOfVariables, ← h.uniqueVars_hom, List.map_flatten]

/-! ## Check -/

theorem var_check (v : Var R) : (v.mapNum h.f).check = v.check := h.varCheck v

theorem mono_check (m : Mono R) : (m.mapNum h.f).check = m.check := by
  rw [Mono.check, Mono.check]
  simp

theorem poly_check (p : Poly R) : (p.mapNum h.f).check = p.check := by
  rw [Poly.check, Poly.check]
  simp only [Poly.mapNum_monos, List.map_eq_nil_iff]
  rw [go_forM h.mono_check]

theorem scalar_check (e : Scalar R) : (e.mapNum h.f).check = e.check := by
  cases e
  · rfl
  · exact h.var_check _
  · exact h.mono_check _
  · exact h.poly_check _

/-! ## Conversions and predicates -/

theorem kToMono (c : R) : Verif.kToMono (h.f c) = (Verif.kToMono c).mapNum h.f := rfl

theorem toMono (v : Var R) : (v.mapNum h.f).toMono = v.toMono.mapNum h.f := by
  simp [Var.toMono, Mono.mapNum, h.one]

theorem kToPoly (c : R) : Verif.kToPoly (h.f c) = (Verif.kToPoly c).mapNum h.f := rfl

theorem toPoly (v : Var R) : (v.mapNum h.f).toPoly = v.toPoly.mapNum h.f := by
  simp [Var.toPoly, Poly.mapNum, h.toMono]

theorem mono_toPoly (m : Mono R) : (m.mapNum h.f).toPoly = m.toPoly.mapNum h.f := rfl

theorem isConstant (m : Mono R) : (m.mapNum h.f).isConstant = m.isConstant := by
  simp [Mono.isConstant]

theorem isDegreeOne (m : Mono R) (v : Var R) : (m.mapNum h.f).isDegreeOne (v.mapNum h.f) = m.isDegreeOne v := by
  rcases m with ⟨c, es, vs⟩
  rw [Mono.isDegreeOne, Mono.isDegreeOne, h.mono_check, h.var_check]
  rcases vs with _ | ⟨w, _ | ⟨w2, vs⟩⟩ <;> rcases es with _ | ⟨e, _ | ⟨e2, es⟩⟩ <;>
    simp [Mono.mapNum]

theorem isVariable (m : Mono R) (v : Var R) : (m.mapNum h.f).isVariable (v.mapNum h.f) = m.isVariable v := by
  rw [Mono.isVariable, Mono.isVariable, h.mono_check, h.var_check, h.isDegreeOne, Mono.mapNum_coeff, ← h.one,
    h.feq]

theorem matchesLoop (all vs : List (Var R)) (es fs : List Int) :
    Verif.matchesLoop (all.map (Var.mapNum h.f)) (vs.map (Var.mapNum h.f)) es fs =
      Verif.matchesLoop all vs es fs := by
  induction vs generalizing es fs with
  | nil => cases es <;> cases fs <;> rfl
  | cons v vs ih =>
    cases es with
    | nil => cases fs <;> rfl
    | cons e es =>
      cases fs with
      | nil => rfl
      | cons g fs => rw [List.map_cons, Verif.matchesLoop, Verif.matchesLoop, h.findVar_hom, ih]

theorem matchesFormOf (m n : Mono R) :
    (m.mapNum h.f).matchesFormOf (n.mapNum h.f) = m.matchesFormOf n := by
  rw [Mono.matchesFormOf, Mono.matchesFormOf, h.mono_check, h.mono_check]
  simp only [Mono.mapNum_vars, Mono.mapNum_exps, List.length_map, h.matchesLoop]

theorem mono_degree (m : Mono R) : (m.mapNum h.f).degree = m.degree := by
  rw [Mono.degree, Mono.degree, h.mono_check]; rfl

theorem mono_constant (m : Mono R) : (m.mapNum h.f).constant = h.f m.constant := by
  rw [Mono.constant, Mono.constant]
  simp only [Mono.mapNum_vars, List.isEmpty_map, Mono.mapNum_coeff, apply_ite h.f, h.zero]

theorem toVariable (m : Mono R) : (m.mapNum h.f).toVariable = Var.mapNum h.f <$> m.toVariable := by
  rw [Mono.toVariable, Mono.toVariable, h.mono_check, Mono.mapNum_vars, map_bind]
  congr 1; funext _
  cases hv : m.vars with
  | nil => rfl
  | cons v vs =>
    simp only [List.map_cons, h.isDegreeOne, map_bind]
    congr 1; funext b
    cases b <;> rfl

theorem mono_asSimplified (m : Mono R) : (m.mapNum h.f).asSimplified = Scalar.mapNum h.f <$> m.asSimplified := by
  rcases m with ⟨c, es, vs⟩
  rw [Mono.asSimplified, Mono.asSimplified, h.mono_check, h.isConstant, map_bind]
  simp only [Mono.mapNum, ← h.zero, ← h.one, h.feq]
  congr 1; funext _
  rcases vs with _ | ⟨w, _ | ⟨w2, vs⟩⟩ <;> rcases es with _ | ⟨e, _ | ⟨e2, es⟩⟩ <;>
    simp only [List.map_cons, List.map_nil] <;>
    (repeat' split) <;> rfl

/-! ## Products of monomials -/

theorem addExponent (vs : List (Var R)) (md : List Int) (ve : Var R × Int) :
    Verif.addExponent (vs.map (Var.mapNum h.f)) md (ve.1.mapNum h.f, ve.2) = Verif.addExponent vs md ve := by
  rw [Verif.addExponent, Verif.addExponent, h.findVar_hom]

theorem addExponents (vs l : List (Var R)) (es md : List Int) :
    ((l.map (Var.mapNum h.f)).zip es).foldlM (Verif.addExponent (vs.map (Var.mapNum h.f))) md =
      (l.zip es).foldlM (Verif.addExponent vs) md := by
  have := go_foldlM (F := Verif.addExponent vs) (G := Verif.addExponent (vs.map (Var.mapNum h.f)))
    (a := Prod.map (Var.mapNum h.f) id) (b := id) (by intro s x; rw [id_map]; exact h.addExponent vs s x) (l.zip es) md
  rw [id_map, id] at this
  rw [← this, ← List.zip_map, List.map_id]

theorem mulMono (m r : Mono R) :
    (m.mapNum h.f).mulMono (r.mapNum h.f) = Mono.mapNum h.f <$> m.mulMono r := by
  rw [Mono.mulMono, Mono.mulMono]
  simp only [← List.map_append, h.uniqueVars_hom, List.length_map, h.addExponents, map_bind, map_pure,
    Mono.mapNum, h.mul]

theorem mono_mulK (m : Mono R) (c : R) : (m.mapNum h.f).mulK (h.f c) = (m.mulK c).mapNum h.f := by
  simp [Mono.mulK, Mono.mapNum, h.mul]

theorem mono_mulVar (m : Mono R) (v : Var R) :
    (m.mapNum h.f).mulVar (v.mapNum h.f) = (m.mulVar v).mapNum h.f := by
  rw [Mono.mulVar, Mono.mulVar, Mono.mapNum_vars, h.findVar_hom]
  cases findVar v m.vars <;> simp [Mono.mapNum]

/-! ## Polynomials -/

theorem poly_variables (p : Poly R) : (p.mapNum h.f).variables = p.variables.map (Var.mapNum h.f) := by
  rw [Poly.variables, Poly.variables, ← h.uniqueVars_hom, List.map_flatMap]
  simp [List.flatMap_map]

theorem constantIndex (p : Poly R) : (p.mapNum h.f).constantIndex = p.constantIndex := by
  rw [Poly.constantIndex, Poly.constantIndex, Poly.mapNum_monos, List.findIdx?_map]
  congr 1; funext m; exact h.isConstant m

theorem varIndexLoop (v : Var R) (l : List (Mono R)) :
    Verif.varIndexLoop (v.mapNum h.f) (l.map (Mono.mapNum h.f)) = Verif.varIndexLoop v l := by
  induction l with
  | nil => rfl
  | cons m l ih => rw [List.map_cons, Verif.varIndexLoop, Verif.varIndexLoop, h.isDegreeOne, ih]

theorem variableIndex (p : Poly R) (v : Var R) :
    (p.mapNum h.f).variableIndex (v.mapNum h.f) = p.variableIndex v := by
  rw [Poly.variableIndex, Poly.variableIndex, h.poly_check, h.var_check, Poly.mapNum_monos, h.varIndexLoop]

theorem find_constant (l : List (Mono R)) :
    (l.map (Mono.mapNum h.f)).find? (·.isConstant) = (l.find? (·.isConstant)).map (Mono.mapNum h.f) := by
  rw [List.find?_map]
  congr 2; funext m; exact h.isConstant m

theorem poly_constant (p : Poly R) : (p.mapNum h.f).constant = h.f <$> p.constant := by
  rw [Poly.constant, Poly.constant, h.poly_check, Poly.mapNum_monos, h.find_constant, map_bind]
  congr 1; funext _
  cases p.monos.find? (·.isConstant)
  · simp [h.zero]
  · rfl

theorem poly_degree (p : Poly R) : (p.mapNum h.f).degree = p.degree := by
  rw [Poly.degree, Poly.degree, h.poly_check, Poly.mapNum_monos]
  congr 1; funext _
  rw [List.foldlM_map]
  simp only [h.mono_degree]

theorem poly_isConstant (p : Poly R) : (p.mapNum h.f).isConstant = p.isConstant := by
  rw [Poly.isConstant, Poly.isConstant, h.poly_check, h.poly_variables]
  simp

theorem insertMono (m : Mono R) (l : List (Mono R)) :
    Verif.insertMono (m.mapNum h.f) (l.map (Mono.mapNum h.f)) =
      List.map (Mono.mapNum h.f) <$> Verif.insertMono m l := by
  induction l with
  | nil => rfl
  | cons e l ih =>
    rw [List.map_cons, Verif.insertMono, Verif.insertMono, h.matchesFormOf, ih, map_bind]
    congr 1; funext b
    cases b
    · simp
    · simp [Mono.mapNum, h.add]

theorem simplifyStep (st : R × List (Mono R)) (m : Mono R) :
    Verif.simplifyStep (h.f st.1, st.2.map (Mono.mapNum h.f)) (m.mapNum h.f) =
      (Prod.map h.f (List.map (Mono.mapNum h.f))) <$> Verif.simplifyStep st m := by
  rw [Verif.simplifyStep, Verif.simplifyStep, h.isConstant]
  split
  · simp [h.add]
  · simp [h.insertMono]

theorem simplify (p : Poly R) : (p.mapNum h.f).simplify = Poly.mapNum h.f <$> p.simplify := by
  rw [Poly.simplify, Poly.simplify, h.poly_check, Poly.mapNum_monos, map_bind]
  congr 1; funext _
  have := go_foldlM (F := Verif.simplifyStep) (G := Verif.simplifyStep) (a := Mono.mapNum h.f)
    (b := Prod.map h.f (List.map (Mono.mapNum h.f))) h.simplifyStep p.monos (GoNum.zero, [])
  rw [show Prod.map h.f (List.map (Mono.mapNum h.f)) ((GoNum.zero : R), []) = (GoNum.zero, []) from
    Prod.ext h.zero rfl] at this
  rw [this]
  simp only [bind_map_left, map_bind, map_pure, Prod.map_fst, Prod.map_snd]
  congr 1; funext st
  have hf : (st.2.map (Mono.mapNum h.f)).filter (fun m => !GoNum.feq m.coeff GoNum.zero) =
      (st.2.filter (fun m => !GoNum.feq m.coeff GoNum.zero)).map (Mono.mapNum h.f) := by
    rw [List.filter_map]
    congr 2; funext m; simp [← h.zero, h.feq]
  have hc : GoNum.feq (h.f st.1) GoNum.zero = GoNum.feq st.1 GoNum.zero := by rw [← h.zero, h.feq]
  simp only [hf, hc]
  have hk : Verif.kToMono (GoNum.zero : S) = (Verif.kToMono GoNum.zero).mapNum h.f := by rw [← h.kToMono, h.zero]
  cases GoNum.feq st.1 GoNum.zero <;> simp [Poly.mapNum, h.kToMono, hk, apply_ite (List.map (Mono.mapNum h.f))]

theorem poly_asSimplified (p : Poly R) : (p.mapNum h.f).asSimplified = Scalar.mapNum h.f <$> p.asSimplified := by
  rw [Poly.asSimplified, Poly.asSimplified, h.simplify]
  simp only [bind_map_left, map_bind]
  congr 1; funext q
  rw [h.poly_degree]
  congr 1; funext d
  rw [h.poly_constant, h.poly_variables]
  rcases q with ⟨ms⟩
  split
  · simp
  split
  · generalize Poly.variables ⟨ms⟩ = vs
    rcases ms with _ | ⟨m, _ | ⟨m2, ms⟩⟩
    · cases vs <;> rfl
    · cases vs with
      | nil => rfl
      | cons v vs =>
        simp only [Poly.mapNum, List.map_cons, List.map_nil, h.isVariable, h.toVariable, map_bind]
        congr 1; funext b
        cases b
        · rfl
        · simp
    · cases vs <;> rfl
  · rcases ms with _ | ⟨m, _ | ⟨m2, ms⟩⟩ <;> rfl

theorem asSimplified (e : Scalar R) : (e.mapNum h.f).asSimplified = Scalar.mapNum h.f <$> e.asSimplified := by
  cases e
  · rfl
  · rfl
  · exact h.mono_asSimplified _
  · exact h.poly_asSimplified _

/-! ## Plus -/

theorem poly_plusK (p : Poly R) (c : R) : (p.mapNum h.f).plusK (h.f c) = Scalar.mapNum h.f <$> p.plusK c := by
  rw [Poly.plusK, Poly.plusK, h.poly_check, h.constantIndex, map_bind]
  congr 1; funext _
  rw [← h.poly_asSimplified]
  congr 1
  cases p.constantIndex
  · simp [Poly.mapNum, h.kToMono]
  · simp only [Poly.mapNum]
    rw [map_modify_hom]
    intro m
    simp [Mono.mapNum, h.add]

theorem poly_plusVar (p : Poly R) (v : Var R) :
    (p.mapNum h.f).plusVar (v.mapNum h.f) = Scalar.mapNum h.f <$> p.plusVar v := by
  rw [Poly.plusVar, Poly.plusVar, h.poly_check, h.var_check, h.variableIndex]
  simp only [map_bind]
  congr 1; funext _
  congr 1; funext _
  congr 1; funext i
  cases i
  · simp only [pure_bind, ← h.poly_asSimplified]
    simp [Poly.mapNum, h.toMono]
  · simp only [pure_bind, ← h.poly_asSimplified]
    congr 1
    simp only [Poly.mapNum]
    rw [map_modify_hom]
    intro m
    simp [Mono.mapNum, h.add, h.one]

theorem poly_plusPoly (p q : Poly R) :
    (p.mapNum h.f).plusPoly (q.mapNum h.f) = Scalar.mapNum h.f <$> p.plusPoly q := by
  rw [Poly.plusPoly, Poly.plusPoly, h.poly_check, h.poly_check]
  simp only [map_bind, ← h.asSimplified]
  congr 1; funext _
  congr 1; funext _
  rw [show (⟨(p.mapNum h.f).monos ++ (q.mapNum h.f).monos⟩ : Poly S) = Poly.mapNum h.f ⟨p.monos ++ q.monos⟩ by
    simp [Poly.mapNum], h.poly_asSimplified, bind_map_left]

theorem poly_plusMono (p : Poly R) (m : Mono R) :
    (p.mapNum h.f).plusMono (m.mapNum h.f) = Scalar.mapNum h.f <$> p.plusMono m := by
  rw [Poly.plusMono, Poly.plusMono, h.poly_check, h.mono_check, h.mono_toPoly, h.poly_plusPoly]
  simp only [map_bind, bind_map_left, h.asSimplified]

theorem poly_plus (p : Poly R) (e : Scalar R) :
    (p.mapNum h.f).plus (e.mapNum h.f) = Scalar.mapNum h.f <$> p.plus e := by
  cases e
  · exact h.poly_plusK _ _
  · exact h.poly_plusVar _ _
  · exact h.poly_plusMono _ _
  · exact h.poly_plusPoly _ _

theorem mono_plus (m : Mono R) (e : Scalar R) :
    (m.mapNum h.f).plus (e.mapNum h.f) = Scalar.mapNum h.f <$> m.plus e := by
  rw [Mono.plus, Mono.plus, h.mono_check, h.scalar_check]
  simp only [map_bind]
  congr 1; funext _
  congr 1; funext _
  cases e with
  | k c =>
    simp only [Scalar.mapNum_k, h.isConstant]
    split
    · simp [← h.asSimplified, h.add]
    · simp [← h.asSimplified, Poly.mapNum, h.kToMono]
  | var v =>
    simp only [Scalar.mapNum_var, h.isDegreeOne, bind_assoc, map_bind]
    congr 1; funext b
    cases b
    · simp [← h.asSimplified, Poly.mapNum, h.toMono]
    · simp [← h.asSimplified, Mono.mapNum, h.add, h.one]
  | mono r =>
    simp only [Scalar.mapNum_mono, h.matchesFormOf, bind_assoc, map_bind]
    congr 1; funext b
    cases b
    · simp [← h.asSimplified, Poly.mapNum]
    · simp [← h.asSimplified, Mono.mapNum, h.add]
  | poly p => simp only [Scalar.mapNum_poly, h.poly_plusMono, bind_map_left, map_bind, h.asSimplified]

theorem var_plus (v : Var R) (e : Scalar R) :
    (v.mapNum h.f).plus (e.mapNum h.f) = Scalar.mapNum h.f <$> v.plus e := by
  rw [Var.plus, Var.plus, h.var_check]
  simp only [map_bind]
  congr 1; funext _
  cases e with
  | k c => simp [← h.asSimplified, Poly.mapNum, h.kToMono, h.toMono]
  | var w =>
    simp only [Scalar.mapNum_var, h.mapNum_id]
    by_cases hw : v.id = w.id
    · simp [hw, ← h.asSimplified, Mono.mapNum, h.ofInt]
    · simp [hw, ← h.asSimplified, Poly.mapNum, h.toMono]
  | mono m =>
    have := h.mono_plus m (.var v)
    simp only [Scalar.mapNum_var] at this
    simp only [Scalar.mapNum_mono, this, bind_map_left, map_bind, h.asSimplified]
  | poly p => simp only [Scalar.mapNum_poly, h.poly_plusVar, bind_map_left, map_bind, h.asSimplified]

theorem kPlus (c : R) (e : Scalar R) :
    Verif.kPlus (h.f c) (e.mapNum h.f) = Scalar.mapNum h.f <$> Verif.kPlus c e := by
  have hc := h.scalar_check e
  cases e with
  | k d => simp [Verif.kPlus, Scalar.check, h.add]
  | var v =>
    have := h.var_plus v (.k c)
    simp only [Scalar.mapNum_k, Scalar.mapNum_var] at this hc
    simp only [Verif.kPlus, Scalar.mapNum_var, hc, this, map_bind]
  | mono m =>
    have := h.mono_plus m (.k c)
    simp only [Scalar.mapNum_k, Scalar.mapNum_mono] at this hc
    simp only [Verif.kPlus, Scalar.mapNum_mono, hc, this, map_bind]
  | poly p =>
    simp only [Scalar.mapNum_poly] at hc
    simp only [Verif.kPlus, Scalar.mapNum_poly, hc, h.poly_plusK, map_bind]

theorem plus (a e : Scalar R) : (a.mapNum h.f).plus (e.mapNum h.f) = Scalar.mapNum h.f <$> a.plus e := by
  cases a
  · exact h.kPlus _ _
  · exact h.var_plus _ _
  · exact h.mono_plus _ _
  · exact h.poly_plus _ _

/-! ## Multiply -/

theorem poly_mulK (p : Poly R) (c : R) : (p.mapNum h.f).mulK (h.f c) = Scalar.mapNum h.f <$> p.mulK c := by
  rw [Poly.mulK, Poly.mulK, h.poly_check, map_bind]
  simp only [← h.poly_asSimplified]
  simp [Poly.mapNum, Function.comp_def, h.mono_mulK]

theorem poly_mulVar (p : Poly R) (v : Var R) :
    (p.mapNum h.f).mulVar (v.mapNum h.f) = Scalar.mapNum h.f <$> p.mulVar v := by
  rw [Poly.mulVar, Poly.mulVar, h.poly_check, h.var_check]
  simp only [map_bind, ← h.poly_asSimplified]
  simp [Poly.mapNum, Function.comp_def, h.mono_mulVar]

theorem poly_mulMono (p : Poly R) (r : Mono R) :
    (p.mapNum h.f).mulMono (r.mapNum h.f) = Scalar.mapNum h.f <$> p.mulMono r := by
  rw [Poly.mulMono, Poly.mulMono, h.poly_check, h.mono_check, Poly.mapNum_monos,
    go_mapM (F := fun m => m.mulMono r) (b := Mono.mapNum h.f) (fun m => h.mulMono m r)]
  simp only [map_bind, bind_map_left, ← h.poly_asSimplified, Poly.mapNum]

theorem poly_mulPoly (p q : Poly R) :
    (p.mapNum h.f).mulPoly (q.mapNum h.f) = Scalar.mapNum h.f <$> p.mulPoly q := by
  rw [Poly.mulPoly, Poly.mulPoly, h.poly_check, h.poly_check, Poly.mapNum_monos]
  have := go_foldlM (F := fun (acc : Scalar R) r => do
      let prod ← p.mulMono r
      acc.plus prod) (G := fun (acc : Scalar S) r => do
      let prod ← (p.mapNum h.f).mulMono r
      acc.plus prod) (a := Mono.mapNum h.f) (b := Scalar.mapNum h.f)
    (by intro s x; simp only [h.poly_mulMono, bind_map_left, map_bind, h.plus]) q.monos (Scalar.k GoNum.zero)
  simp only [Scalar.mapNum_k, Scalar.mapNum_var, Scalar.mapNum_mono, Scalar.mapNum_poly, h.zero] at this
  rw [this]
  simp only [map_bind, bind_map_left, h.asSimplified]

theorem poly_mul (p : Poly R) (e : Scalar R) :
    (p.mapNum h.f).mul (e.mapNum h.f) = Scalar.mapNum h.f <$> p.mul e := by
  cases e
  · exact h.poly_mulK _ _
  · exact h.poly_mulVar _ _
  · exact h.poly_mulMono _ _
  · exact h.poly_mulPoly _ _

theorem mono_mul (m : Mono R) (e : Scalar R) :
    (m.mapNum h.f).mul (e.mapNum h.f) = Scalar.mapNum h.f <$> m.mul e := by
  rw [Mono.mul.eq_def, Mono.mul.eq_def, h.mono_check, h.scalar_check]
  simp only [map_bind]
  congr 1; funext _
  congr 1; funext _
  cases e with
  | k c => simp only [Scalar.mapNum_k, Scalar.mapNum_var, Scalar.mapNum_mono, Scalar.mapNum_poly, h.mono_mulK, map_pure]
  | var v => simp only [Scalar.mapNum_k, Scalar.mapNum_var, Scalar.mapNum_mono, Scalar.mapNum_poly, h.mono_mulVar, map_pure]
  | mono r => simp only [Scalar.mapNum_k, Scalar.mapNum_var, Scalar.mapNum_mono, Scalar.mapNum_poly, h.mulMono, map_bind, map_pure, bind_map_left]
  | poly p => exact h.poly_mulMono p m

theorem var_mul (v : Var R) (e : Scalar R) :
    (v.mapNum h.f).mul (e.mapNum h.f) = Scalar.mapNum h.f <$> v.mul e := by
  rw [Var.mul, Var.mul, h.var_check, h.scalar_check]
  simp only [map_bind]
  congr 1; funext _
  congr 1; funext _
  cases e with
  | k c => simp [← h.asSimplified, Mono.mapNum]
  | var w =>
    simp only [Scalar.mapNum_var, h.mapNum_id]
    by_cases hw : w.id = v.id
    · simp [hw, ← h.asSimplified, Mono.mapNum, h.one]
    · simp [hw, ← h.asSimplified, Mono.mapNum, h.one]
  | mono m =>
    have := h.mono_mul m (.var v)
    simp only [Scalar.mapNum_var] at this
    simp only [Scalar.mapNum_mono, this, bind_map_left, map_bind, h.asSimplified]
  | poly p => simp only [Scalar.mapNum_poly, h.poly_mulVar, bind_map_left, map_bind, h.asSimplified]

theorem kMul (c : R) (e : Scalar R) :
    Verif.kMul (h.f c) (e.mapNum h.f) = Scalar.mapNum h.f <$> Verif.kMul c e := by
  have hc := h.scalar_check e
  cases e with
  | k d => simp [Verif.kMul, Scalar.check, h.mul]
  | var v =>
    have := h.var_mul v (.k c)
    simp only [Scalar.mapNum_k, Scalar.mapNum_var] at this hc
    simp only [Verif.kMul, Scalar.mapNum_var, hc, this, map_bind]
  | mono m =>
    have := h.mono_mul m (.k c)
    simp only [Scalar.mapNum_k, Scalar.mapNum_mono] at this hc
    simp only [Verif.kMul, Scalar.mapNum_mono, hc, this, map_bind]
  | poly p =>
    simp only [Scalar.mapNum_poly] at hc
    simp only [Verif.kMul, Scalar.mapNum_poly, hc, h.poly_mulK, map_bind]

theorem smul (a e : Scalar R) : (a.mapNum h.f).mul (e.mapNum h.f) = Scalar.mapNum h.f <$> a.mul e := by
  cases a
  · exact h.kMul _ _
  · exact h.var_mul _ _
  · exact h.mono_mul _ _
  · exact h.poly_mul _ _

/-! ## Minus, Power -/

theorem negOne : (Verif.negOne : S) = h.f Verif.negOne := by
  rw [Verif.negOne, Verif.negOne, h.neg, h.one]

theorem plusF64 (e : Scalar R) (c : R) :
    (e.mapNum h.f).plusF64 (h.f c) = Scalar.mapNum h.f <$> e.plusF64 c := by
  have := h.plus e (.k c)
  cases e with
  | k d => exact h.kPlus d (.k c)
  | _ =>
    simp only [Scalar.mapNum_k, Scalar.mapNum_var, Scalar.mapNum_mono, Scalar.mapNum_poly] at this
    simp only [Scalar.mapNum_k, Scalar.mapNum_var, Scalar.mapNum_mono, Scalar.mapNum_poly, Scalar.plusF64, this, bind_map_left, map_bind, h.asSimplified]

theorem mulF64 (e : Scalar R) (c : R) :
    (e.mapNum h.f).mulF64 (h.f c) = Scalar.mapNum h.f <$> e.mulF64 c := by
  have := h.smul e (.k c)
  cases e with
  | k d => exact h.kMul d (.k c)
  | mono m => exact h.mono_mul m (.k c)
  | _ =>
    simp only [Scalar.mapNum_k, Scalar.mapNum_var, Scalar.mapNum_mono, Scalar.mapNum_poly] at this
    simp only [Scalar.mapNum_k, Scalar.mapNum_var, Scalar.mapNum_mono, Scalar.mapNum_poly, Scalar.mulF64, this, bind_map_left, map_bind, h.asSimplified]

theorem minus (a b : Scalar R) : (a.mapNum h.f).minus (b.mapNum h.f) = Scalar.mapNum h.f <$> a.minus b := by
  rw [Scalar.minus, Scalar.minus, h.scalar_check, h.scalar_check, h.negOne, h.mulF64]
  simp only [map_bind, bind_map_left, h.plus]

theorem powLoop (b : Scalar R) (n : Nat) (acc : Scalar R) :
    Verif.powLoop (b.mapNum h.f) n (acc.mapNum h.f) = Scalar.mapNum h.f <$> Verif.powLoop b n acc := by
  induction n generalizing acc with
  | zero => rfl
  | succ n ih => simp only [Verif.powLoop, h.smul, bind_map_left, map_bind, ih]

theorem power (b : Scalar R) (n : Int) : (b.mapNum h.f).power n = Scalar.mapNum h.f <$> b.power n := by
  rw [Scalar.power, Scalar.power, h.scalar_check, map_bind]
  congr 1; funext _
  split
  · rfl
  · have := h.powLoop b n.toNat (.k GoNum.one)
    simp only [Scalar.mapNum_k, Scalar.mapNum_var, Scalar.mapNum_mono, Scalar.mapNum_poly, h.one] at this
    simpa using this

/-! ## Variables, Constant, Degree, LinearCoeff -/

theorem variables (e : Scalar R) : (e.mapNum h.f).variables = e.variables.map (Var.mapNum h.f) := by
  cases e
  · rfl
  · rfl
  · rfl
  · exact h.poly_variables _

theorem constant (e : Scalar R) : (e.mapNum h.f).constant = h.f <$> e.constant := by
  cases e with
  | k c => rfl
  | var v => simp [Scalar.constant, h.zero]
  | mono m => simp [Scalar.constant, h.mono_constant]
  | poly p => exact h.poly_constant _

theorem degree (e : Scalar R) : (e.mapNum h.f).degree = e.degree := by
  cases e
  · rfl
  · rfl
  · exact h.mono_degree _
  · exact h.poly_degree _

theorem isLinear (e : Scalar R) : (e.mapNum h.f).isLinear = e.isLinear := by
  rw [Scalar.isLinear, Scalar.isLinear, h.degree]

theorem isQuadratic (e : Scalar R) : (e.mapNum h.f).isQuadratic = e.isQuadratic := by
  rw [Scalar.isQuadratic, Scalar.isQuadratic, h.degree]

theorem wrtOrDefault (d : List (Var R)) (w : List (List (Var R))) :
    Verif.wrtOrDefault (d.map (Var.mapNum h.f)) (w.map (·.map (Var.mapNum h.f))) =
      List.map (Var.mapNum h.f) <$> Verif.wrtOrDefault d w := by
  rcases w with _ | ⟨w, _ | ⟨w2, ws⟩⟩ <;> rfl

theorem linearCoeff (e : Scalar R) (w : List (List (Var R))) :
    (e.mapNum h.f).linearCoeff (w.map (·.map (Var.mapNum h.f))) = List.map h.f <$> e.linearCoeff w := by
  cases e with
  | k c =>
    rcases w with _ | ⟨w, ws⟩
    · rfl
    · rcases w with _ | ⟨x, w⟩
      · rfl
      · simp [Scalar.linearCoeff, kLinearCoeff, h.zero]
  | var v =>
    simp only [Scalar.mapNum_k, Scalar.mapNum_var, Scalar.mapNum_mono, Scalar.mapNum_poly, Scalar.linearCoeff, Var.linearCoeff, h.var_check, map_bind]
    congr 1; funext _
    have := h.wrtOrDefault [v] w
    simp only [List.map_cons, List.map_nil] at this
    rw [this, bind_map_left]
    congr 1; funext ws
    rw [List.isEmpty_map]
    split
    · rfl
    · simp only [pure_bind, map_pure, List.map_map]
      congr 2; funext x
      simp only [Function.comp_apply, h.mapNum_id, apply_ite h.f, h.one, h.zero]
  | mono m =>
    simp only [Scalar.mapNum_k, Scalar.mapNum_var, Scalar.mapNum_mono, Scalar.mapNum_poly, Scalar.linearCoeff, Mono.linearCoeff, h.mono_check, map_bind,
      Mono.mapNum_vars, h.wrtOrDefault, bind_map_left, List.isEmpty_map, List.length_map, h.mono_degree]
    congr 1; funext _
    congr 1; funext ws
    split
    · rfl
    · simp only [pure_bind, map_bind]
      congr 1; funext d
      split
      · cases m.vars with
        | nil => rfl
        | cons v vs =>
          simp only [List.map_cons, h.findVar_hom]
          cases findVar v ws with
          | none => rfl
          | some i => simp [h.zero]
      · simp [h.zero]
  | poly p =>
    simp only [Scalar.mapNum_k, Scalar.mapNum_var, Scalar.mapNum_mono, Scalar.mapNum_poly, Scalar.linearCoeff, Poly.linearCoeff, h.poly_check, map_bind,
      h.poly_variables, h.wrtOrDefault, bind_map_left, List.isEmpty_map]
    congr 1; funext _
    congr 1; funext ws
    split
    · rfl
    · apply go_mapM
      intro x
      simp only [h.variableIndex, map_bind]
      congr 1; funext i
      cases i with
      | none => simp [h.zero]
      | some i =>
        simp only [Poly.mapNum_monos, List.getElem?_map]
        cases p.monos[i]? <;> rfl

/-! ## DerivativeWrt -/

theorem mono_derivative (m : Mono R) (v : Var R) :
    (m.mapNum h.f).derivative (v.mapNum h.f) = Scalar.mapNum h.f <$> m.derivative v := by
  rw [Mono.derivative, Mono.derivative, h.mono_check, h.var_check, Mono.mapNum_vars, h.findVar_hom]
  simp only [map_bind]
  congr 1; funext _
  congr 1; funext _
  cases findVar v m.vars with
  | none => simp [h.zero]
  | some i =>
    simp only [Mono.mapNum_exps]
    cases m.exps[i]? with
    | none => rfl
    | some e =>
      simp only [List.length_map]
      split
      · rfl
      split
      · simp [Mono.mapNum, map_eraseIdx_hom]
      · simp [Mono.mapNum, h.mul, h.ofInt]

theorem derivStep (v : Var R) (acc : List (Mono R)) (m : Mono R) :
    Verif.derivStep (v.mapNum h.f) (acc.map (Mono.mapNum h.f)) (m.mapNum h.f) =
      List.map (Mono.mapNum h.f) <$> Verif.derivStep v acc m := by
  rw [Verif.derivStep, Verif.derivStep, h.isConstant, h.mono_derivative]
  split
  · rfl
  · simp only [bind_map_left, map_bind, pure_bind]
    congr 1; funext d
    cases d with
    | k c =>
      simp only [Scalar.mapNum_k, Scalar.mapNum_var, Scalar.mapNum_mono, Scalar.mapNum_poly]
      rw [← h.zero, h.feq]
      split
      · rfl
      · simp [h.kToMono]
    | mono d => simp [Scalar.mapNum_k, Scalar.mapNum_var, Scalar.mapNum_mono, Scalar.mapNum_poly]
    | _ => rfl

theorem poly_derivative (p : Poly R) (v : Var R) :
    (p.mapNum h.f).derivative (v.mapNum h.f) = Scalar.mapNum h.f <$> p.derivative v := by
  rw [Poly.derivative, Poly.derivative, h.poly_check, h.var_check, Poly.mapNum_monos]
  have := go_foldlM (h.derivStep v) p.monos []
  rw [List.map_nil] at this
  rw [this]
  simp only [map_bind, bind_map_left, List.isEmpty_map]
  congr 1; funext _
  congr 1; funext _
  congr 1; funext ms
  split
  · simp [h.zero]
  · rfl

theorem derivative (e : Scalar R) (v : Var R) :
    (e.mapNum h.f).derivative (v.mapNum h.f) = Scalar.mapNum h.f <$> e.derivative v := by
  cases e with
  | k c => simp [Scalar.derivative, h.zero]
  | var w =>
    simp only [Scalar.mapNum_k, Scalar.mapNum_var, Scalar.mapNum_mono, Scalar.mapNum_poly, Scalar.derivative, h.var_check, map_bind, h.mapNum_id]
    congr 1; funext _
    congr 1; funext _
    by_cases hw : w.id = v.id <;> simp [hw, h.one, h.zero]
  | mono m => exact h.mono_derivative _ _
  | poly p => exact h.poly_derivative _ _

/-! ## Substitute -/

theorem var_substitute (v w : Var R) (s : Scalar R) :
    (v.mapNum h.f).substitute (w.mapNum h.f) (s.mapNum h.f) = Scalar.mapNum h.f <$> v.substitute w s := by
  rw [Var.substitute, Var.substitute, h.var_check, h.var_check, h.scalar_check]
  simp only [map_bind]
  congr 1; funext _
  congr 1; funext _
  congr 1; funext _
  have hs := h.sameVar v w
  change (if (h.f.var v).id = (h.f.var w).id ∧ (h.f.var v).env = (h.f.var w).env then _ else _) = _
  by_cases hw : v.id = w.id ∧ v.env = w.env
  · rw [if_pos (hs.mpr hw), if_pos hw]; rfl
  · rw [if_neg (fun t => hw (hs.mp t)), if_neg hw]; rfl

theorem zip_hom (vs : List (Var R)) (es : List Int) :
    (vs.map (Var.mapNum h.f)).zip es = (vs.zip es).map (Prod.map (Var.mapNum h.f) id) := by
  rw [← List.zip_map, List.map_id]

theorem mono_substitute (m : Mono R) (w : Var R) (s : Scalar R) :
    (m.mapNum h.f).substitute (w.mapNum h.f) (s.mapNum h.f) = Scalar.mapNum h.f <$> m.substitute w s := by
  rw [Mono.substitute, Mono.substitute, h.mono_check, h.var_check, h.scalar_check, Mono.mapNum_vars, h.findVar_hom]
  simp only [map_bind]
  congr 1; funext _
  congr 1; funext _
  congr 1; funext _
  cases findVar w m.vars with
  | none => rfl
  | some i =>
    simp only [Mono.mapNum_exps, h.zip_hom]
    refine go_foldlM (b := Scalar.mapNum h.f) ?_ _ (Scalar.k m.coeff)
    intro acc ve
    simp only [Prod.map_fst, Prod.map_snd, id, h.var_substitute, bind_map_left, h.power, h.smul, map_bind]

theorem poly_substitute (p : Poly R) (w : Var R) (s : Scalar R) :
    (p.mapNum h.f).substitute (w.mapNum h.f) (s.mapNum h.f) = Scalar.mapNum h.f <$> p.substitute w s := by
  rw [Poly.substitute, Poly.substitute, h.poly_check, h.var_check, h.scalar_check, Poly.mapNum_monos]
  have := go_foldlM (F := fun (acc : Scalar R) m => do
      let t ← m.substitute w s
      acc.plus t) (G := fun (acc : Scalar S) m => do
      let t ← m.substitute (w.mapNum h.f) (s.mapNum h.f)
      acc.plus t) (a := Mono.mapNum h.f) (b := Scalar.mapNum h.f)
    (by intro acc m; simp only [h.mono_substitute, bind_map_left, map_bind, h.plus]) p.monos (Scalar.k GoNum.zero)
  simp only [Scalar.mapNum_k, Scalar.mapNum_var, Scalar.mapNum_mono, Scalar.mapNum_poly, h.zero] at this
  rw [this]
  simp only [map_bind, bind_map_left, h.asSimplified]

theorem substitute (e : Scalar R) (w : Var R) (s : Scalar R) :
    (e.mapNum h.f).substitute (w.mapNum h.f) (s.mapNum h.f) = Scalar.mapNum h.f <$> e.substitute w s := by
  cases e
  · rfl
  · exact h.var_substitute _ _ _
  · exact h.mono_substitute _ _ _
  · exact h.poly_substitute _ _ _

theorem checkSubMap (sm : SubMap R) : Verif.checkSubMap (sm.mapNum h.f) = Verif.checkSubMap sm := by
  rw [Verif.checkSubMap, Verif.checkSubMap, SubMap.mapNum]
  apply go_forM
  intro kv
  simp only [h.var_check, h.scalar_check]

theorem lookup (hk : h.Keys) (sm : SubMap R) (v : Var R) :
    (sm.mapNum h.f).lookup (v.mapNum h.f) = (sm.lookup v).map (Scalar.mapNum h.f) := by
  rw [SubMap.lookup, SubMap.lookup, SubMap.mapNum, List.find?_map, Option.map_map, Option.map_map]
  congr 1
  congr 1; funext kv
  exact hk v kv.1

theorem var_substMap (hk : h.Keys) (v : Var R) (sm : SubMap R) :
    (v.mapNum h.f).substMap (sm.mapNum h.f) = Scalar.mapNum h.f <$> v.substMap sm := by
  rw [Var.substMap, Var.substMap, h.var_check, h.checkSubMap, h.lookup hk]
  simp only [map_bind]
  congr 1; funext _
  congr 1; funext _
  cases sm.lookup v <;> rfl

theorem mono_substMap (hk : h.Keys) (m : Mono R) (sm : SubMap R) :
    (m.mapNum h.f).substMap (sm.mapNum h.f) = Scalar.mapNum h.f <$> m.substMap sm := by
  rw [Mono.substMap, Mono.substMap, h.mono_check, h.checkSubMap]
  simp only [map_bind, Mono.mapNum_vars, Mono.mapNum_exps, h.zip_hom]
  congr 1; funext _
  congr 1; funext _
  refine go_foldlM (b := Scalar.mapNum h.f) ?_ _ (Scalar.k m.coeff)
  intro acc ve
  simp only [Prod.map_fst, Prod.map_snd, id, h.var_substMap hk, bind_map_left, h.power, h.smul, map_bind]

theorem poly_substMap (hk : h.Keys) (p : Poly R) (sm : SubMap R) :
    (p.mapNum h.f).substMap (sm.mapNum h.f) = Scalar.mapNum h.f <$> p.substMap sm := by
  rw [Poly.substMap, Poly.substMap, h.poly_check, h.checkSubMap, Poly.mapNum_monos]
  have := go_foldlM (F := fun (acc : Scalar R) m => do
      let t ← m.substMap sm
      acc.plus t) (G := fun (acc : Scalar S) m => do
      let t ← m.substMap (sm.mapNum h.f)
      acc.plus t) (a := Mono.mapNum h.f) (b := Scalar.mapNum h.f)
    (by intro acc m; simp only [h.mono_substMap hk, bind_map_left, map_bind, h.plus]) p.monos (Scalar.k GoNum.zero)
  simp only [Scalar.mapNum_k, Scalar.mapNum_var, Scalar.mapNum_mono, Scalar.mapNum_poly, h.zero] at this
  rw [this]
  simp only [map_bind]

theorem substMap (hk : h.Keys) (e : Scalar R) (sm : SubMap R) :
    (e.mapNum h.f).substMap (sm.mapNum h.f) = Scalar.mapNum h.f <$> e.substMap sm := by
  cases e
  · rfl
  · exact h.var_substMap hk _ _
  · exact h.mono_substMap hk _ _
  · exact h.poly_substMap hk _ _

end NumHom

end Verif
