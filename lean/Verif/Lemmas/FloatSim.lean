import Verif.Lemmas.Value
import Mathlib.Algebra.Order.BigOperators.Group.List
import Mathlib.Algebra.Order.AbsoluteValue.Basic
import Mathlib.Algebra.Group.Subgroup.Basic
import Mathlib.Tactic.Linarith
import Mathlib.Tactic.Positivity

/-!
# Floating point runs that coincide with exact runs

`FloatModel R K` is what floating point guarantees: an operation whose exact result is representable
returns it.  A run of a library function on floats is compared, step by step, with the run of the same
function on the exact numbers `K`: `Go.Rel A x y` says that both return, with results related by `A`,
or both panic with the same kind of panic.

The coefficients stay on a grid `G` (an additive subgroup of `K`, such as the integers or the multiples
of `2^-10`), and the sum of their absolute values stays below a bound `B` such that everything on the
grid of size at most `B` is representable.
-/

set_option linter.unusedSectionVars false

namespace Verif

/-- Floating point numbers `R` that stand for the exact numbers `K`.  `Rep x q`: the value of the float
`x` is `q`.  `Able q`: `q` is the value of some float.  Nothing is said about results that are not
representable.  `BRep` is for the bounds of variables, which are only compared: infinite bounds may stand
for any exact numbers beyond the finite floats. -/
structure FloatModel (R K : Type) [GoNum R] [Field K] [LinearOrder K] where
  Rep : R → K → Prop
  Able : K → Prop
  BRep : R → K → Prop
  zero : Rep GoNum.zero 0
  one : Rep GoNum.one 1
  add : ∀ {x y p q}, Rep x p → Rep y q → Able (p + q) → Rep (GoNum.add x y) (p + q)
  mul : ∀ {x y p q}, Rep x p → Rep y q → Able (p * q) → Rep (GoNum.mul x y) (p * q)
  sub : ∀ {x y p q}, Rep x p → Rep y q → Able (p - q) → Rep (GoNum.sub x y) (p - q)
  neg : ∀ {x p}, Rep x p → Rep (GoNum.neg x) (-p)
  div : ∀ {x y p q}, Rep x p → Rep y q → q ≠ 0 → Able (p / q) → Rep (GoNum.div x y) (p / q)
  ofInt : ∀ k : Int, Able (k : K) → Rep (GoNum.ofInt k) (k : K)
  feq : ∀ {x y p q}, Rep x p → Rep y q → (GoNum.feq x y = true ↔ p = q)
  lt : ∀ {x y p q}, Rep x p → Rep y q → (GoNum.lt x y = true ↔ p < q)
  le : ∀ {x y p q}, Rep x p → Rep y q → (GoNum.le x y = true ↔ p ≤ q)
  bfeq : ∀ {x y p q}, BRep x p → BRep y q → (GoNum.feq x y = true ↔ p = q)
  ble : ∀ {x y p q}, BRep x p → BRep y q → (GoNum.le x y = true ↔ p ≤ q)

/-! ## Two runs -/

/-- Two computations end the same way: both return, with related results, or both panic with the same
kind of panic. -/
def Go.Rel {α β : Type} (A : α → β → Prop) : Go α → Go β → Prop
  | .ok a, .ok b => A a b
  | .error e, .error f => e = f
  | _, _ => False

section
variable {α β γ δ : Type} {A : α → β → Prop} {B : γ → δ → Prop}

theorem Go.rel_pure {a : α} {b : β} (h : A a b) : Go.Rel A (pure a) (pure b) := h

theorem Go.rel_throw (e : Err) : Go.Rel A (throw e) (throw e) := rfl

theorem Go.Rel.bind {x : Go α} {y : Go β} {f : α → Go γ} {g : β → Go δ} (h : Go.Rel A x y)
    (hf : ∀ a b, A a b → Go.Rel B (f a) (g b)) : Go.Rel B (x >>= f) (y >>= g) := by
  match x, y, h with
  | .ok a, .ok b, h => exact hf a b h
  | .error e, .error _, h => exact h

theorem Go.Rel.mono {A' : α → β → Prop} {x : Go α} {y : Go β} (h : Go.Rel A x y)
    (hA : ∀ a b, A a b → A' a b) : Go.Rel A' x y := by
  match x, y, h with
  | .ok a, .ok b, h => exact hA a b h
  | .error e, .error _, h => exact h

/-- The two tests of a branching agree. -/
theorem Go.rel_ite {c d : Prop} [Decidable c] [Decidable d] (h : c ↔ d) {x x' : Go α} {y y' : Go β}
    (ht : c → Go.Rel A x y) (he : ¬ c → Go.Rel A x' y') :
    Go.Rel A (if c then x else x') (if d then y else y') := by
  by_cases hc : c
  · rw [if_pos hc, if_pos (h.1 hc)]; exact ht hc
  · rw [if_neg hc, if_neg (fun hd => hc (h.2 hd))]; exact he hc

theorem Go.rel_forM {f : α → Go Unit} {g : β → Go Unit} {l : List α} {l' : List β}
    (h : List.Forall₂ A l l') (hf : ∀ a b, A a b → Go.Rel (fun _ _ => True) (f a) (g b)) :
    Go.Rel (fun _ _ => True) (l.forM f) (l'.forM g) := by
  induction h with
  | nil => trivial
  | cons h _ ih => exact Go.Rel.bind (hf _ _ h) (fun _ _ _ => ih)

theorem Go.rel_mapM {f : α → Go γ} {g : β → Go δ} {l : List α} {l' : List β}
    (h : List.Forall₂ A l l') (hf : ∀ a b, A a b → Go.Rel B (f a) (g b)) :
    Go.Rel (List.Forall₂ B) (l.mapM f) (l'.mapM g) := by
  induction h with
  | nil => exact Go.rel_pure List.Forall₂.nil
  | cons h _ ih =>
    rw [List.mapM_cons, List.mapM_cons]
    exact Go.Rel.bind (hf _ _ h) (fun _ _ hb => Go.Rel.bind ih (fun _ _ hbs =>
      Go.rel_pure (List.Forall₂.cons hb hbs)))

/-- Loops whose states stay related; `I l l'` speaks about what is left to do. -/
theorem Go.rel_foldlM {f : γ → α → Go γ} {g : δ → β → Go δ}
    (I : List α → List β → γ → δ → Prop)
    (hf : ∀ a b l l' c d, A a b → I (a :: l) (b :: l') c d → Go.Rel (I l l') (f c a) (g d b)) :
    ∀ {l : List α} {l' : List β}, List.Forall₂ A l l' → ∀ c d, I l l' c d →
      Go.Rel (I [] []) (l.foldlM f c) (l'.foldlM g d) := by
  intro l l' h
  induction h with
  | nil => exact fun c d h => h
  | cons h _ ih =>
    intro c d hI
    rw [List.foldlM_cons, List.foldlM_cons]
    exact Go.Rel.bind (hf _ _ _ _ _ _ h hI) (fun c d h => ih c d h)

end

/-! ## Related variables and terms -/

variable {R K : Type} [GoNum R] [Field K] [LinearOrder K]

/-- The variable of the exact run: the same but for the representation of the bounds. -/
structure VRel (F : FloatModel R K) (v : Var R) (w : Var K) : Prop where
  id : v.id = w.id
  env : v.env = w.env
  vtype : v.vtype = w.vtype
  name : v.name = w.name
  lower : F.BRep v.lower w.lower
  upper : F.BRep v.upper w.upper

variable {F : FloatModel R K}

theorem VRel.le {v : Var R} {w : Var K} (h : VRel F v w) :
    GoNum.le v.upper v.lower = GoNum.le w.upper w.lower := by
  rw [Bool.eq_iff_iff, F.ble h.upper h.lower, gn_le, decide_eq_true_iff]

theorem VRel.keyEq {v x : Var R} {w y : Var K} (h : VRel F v w) (h' : VRel F x y) :
    v.keyEq x = w.keyEq y := by
  have e1 : GoNum.feq v.lower x.lower = GoNum.feq w.lower y.lower := by
    rw [Bool.eq_iff_iff, F.bfeq h.lower h'.lower, gn_feq, decide_eq_true_iff]
  have e2 : GoNum.feq v.upper x.upper = GoNum.feq w.upper y.upper := by
    rw [Bool.eq_iff_iff, F.bfeq h.upper h'.upper, gn_feq, decide_eq_true_iff]
  unfold Var.keyEq
  rw [e1, e2, h.id, h'.id, h.vtype, h'.vtype, h.name, h'.name, h.env, h'.env]

theorem VRel.check {v : Var R} {w : Var K} (h : VRel F v w) :
    Go.Rel (fun _ _ => True) v.check w.check := by
  unfold Var.check
  exact Go.rel_ite (by rw [h.le]) (fun _ => Go.rel_throw _) (fun _ => trivial)

theorem findVar_rel {v : Var R} {w : Var K} (h : v.id = w.id) {l : List (Var R)} {l' : List (Var K)}
    (hl : List.Forall₂ (VRel F) l l') : findVar v l = findVar w l' := by
  induction hl with
  | nil => rfl
  | cons hx _ ih =>
    rw [findVar, findVar, ih, h, hx.1]

theorem uniqueVars_rel {l : List (Var R)} {l' : List (Var K)} (hl : List.Forall₂ (VRel F) l l') :
    List.Forall₂ (VRel F) (uniqueVars l) (uniqueVars l') := by
  have key : ∀ {l : List (Var R)} {l' : List (Var K)}, List.Forall₂ (VRel F) l l' →
      ∀ a a', List.Forall₂ (VRel F) a a' →
        List.Forall₂ (VRel F) (l.foldl uniqueStep a) (l'.foldl uniqueStep a') := by
    intro l l' hl
    induction hl with
    | nil => exact fun a a' h => h
    | cons hx _ ih =>
      intro a a' ha
      apply ih
      unfold uniqueStep
      rw [findVar_rel hx.1 ha]
      split
      · exact List.rel_append ha (List.Forall₂.cons hx List.Forall₂.nil)
      · exact ha
  exact key hl [] [] List.Forall₂.nil

section
variable (F) (G : AddSubgroup K)

/-- The float `x` has the value `q`, which is on the grid. -/
def CRel (x : R) (q : K) : Prop := F.Rep x q ∧ q ∈ G

/-- The same term, with the coefficient's value. -/
def MRel (m : Mono R) (n : Mono K) : Prop :=
  CRel F G m.coeff n.coeff ∧ m.exps = n.exps ∧ List.Forall₂ (VRel F) m.vars n.vars

/-- The sum of the absolute values of the coefficients. -/
def lnorm (l : List (Mono K)) : K := (l.map (fun m => |m.coeff|)).sum

/-- The same terms, with absolute values adding up to at most `B`. -/
def LRel (B : K) (l : List (Mono R)) (l' : List (Mono K)) : Prop :=
  List.Forall₂ (MRel F G) l l' ∧ lnorm l' ≤ B

/-- The same scalar, with the values of the coefficients on the grid and the sum of their absolute
values at most `B`. -/
def SRel (B : K) : Scalar R → Scalar K → Prop
  | .k x, .k q => CRel F G x q ∧ |q| ≤ B
  | .var v, .var w => VRel F v w ∧ 1 ≤ B
  | .mono m, .mono n => MRel F G m n ∧ |n.coeff| ≤ B
  | .poly p, .poly q => LRel F G B p.monos q.monos
  | _, _ => False

/-- Everything on the grid of size at most `B` is representable, and `1` is on the grid. -/
structure Fit (B : K) : Prop where
  one : 1 ∈ G
  able : ∀ q ∈ G, |q| ≤ B → F.Able q

end

variable {G : AddSubgroup K} {B B1 B2 : K}

@[simp] theorem lnorm_nil : lnorm ([] : List (Mono K)) = 0 := rfl
@[simp] theorem lnorm_cons (m : Mono K) (l) : lnorm (m :: l) = |m.coeff| + lnorm l := by
  simp [lnorm]
@[simp] theorem lnorm_append [IsStrictOrderedRing K] (l l' : List (Mono K)) :
    lnorm (l ++ l') = lnorm l + lnorm l' := by simp [lnorm]

variable [IsStrictOrderedRing K]

theorem lnorm_nonneg (l : List (Mono K)) : 0 ≤ lnorm l := by
  induction l with
  | nil => exact le_refl _
  | cons m l ih => rw [lnorm_cons]; exact add_nonneg (abs_nonneg _) ih

theorem Fit.mono (h : Fit F G B) {B' : K} (hB : B' ≤ B) : Fit F G B' :=
  ⟨h.one, fun q hq hb => h.able q hq (hb.trans hB)⟩

theorem Fit.add (h : Fit F G B) {x y : R} {p q : K} (hx : CRel F G x p) (hy : CRel F G y q)
    (hB : |p| + |q| ≤ B) : CRel F G (GoNum.add x y) (p + q) :=
  ⟨F.add hx.1 hy.1 (h.able _ (G.add_mem hx.2 hy.2) ((abs_add_le _ _).trans hB)),
    G.add_mem hx.2 hy.2⟩

theorem crel_zero : CRel F G GoNum.zero 0 := ⟨F.zero, G.zero_mem⟩
theorem Fit.crel_one (h : Fit F G B) : CRel F G GoNum.one 1 := ⟨F.one, h.one⟩

theorem CRel.feq {x y : R} {p q : K} (hx : CRel F G x p) (hy : CRel F G y q) :
    (GoNum.feq x y = true ↔ GoNum.feq p q = true) := by
  rw [F.feq hx.1 hy.1, gn_feq, decide_eq_true_iff]

theorem CRel.feq' {x y : R} {p q : K} (hx : CRel F G x p) (hy : CRel F G y q) :
    GoNum.feq x y = GoNum.feq p q := Bool.eq_iff_iff.2 (CRel.feq hx hy)

theorem MRel.length {m : Mono R} {n : Mono K} (h : MRel F G m n) : m.vars.length = n.vars.length :=
  h.2.2.length_eq

theorem MRel.check {m : Mono R} {n : Mono K} (h : MRel F G m n) :
    Go.Rel (fun _ _ => True) m.check n.check := by
  unfold Mono.check
  exact Go.rel_ite (by rw [h.2.1, h.length]) (fun _ => Go.rel_throw _) (fun _ => trivial)

theorem forall₂_nil_iff {α β : Type} {A : α → β → Prop} {l : List α} {l' : List β}
    (h : List.Forall₂ A l l') : l = [] ↔ l' = [] := by
  cases h <;> simp

theorem lcheck_rel {l : List (Mono R)} {l' : List (Mono K)} (h : List.Forall₂ (MRel F G) l l') :
    Go.Rel (fun _ _ => True) (Poly.check ⟨l⟩) (Poly.check ⟨l'⟩) := by
  unfold Poly.check
  exact Go.rel_ite (forall₂_nil_iff h) (fun _ => Go.rel_throw _)
    (fun _ => Go.rel_forM h (fun _ _ h => h.check))

theorem SRel.check {a : Scalar R} {b : Scalar K} (h : SRel F G B a b) :
    Go.Rel (fun _ _ => True) a.check b.check := by
  match a, b, h with
  | .k _, .k _, _ => trivial
  | .var _, .var _, h => exact h.1.check
  | .mono _, .mono _, h => exact h.1.check
  | .poly _, .poly _, h => exact lcheck_rel h.1

theorem SRel.mono {a : Scalar R} {b : Scalar K} (h : SRel F G B1 a b) (hB : B1 ≤ B2) :
    SRel F G B2 a b := by
  match a, b, h with
  | .k _, .k _, h => exact ⟨h.1, h.2.trans hB⟩
  | .var _, .var _, h => exact ⟨h.1, h.2.trans hB⟩
  | .mono _, .mono _, h => exact ⟨h.1, h.2.trans hB⟩
  | .poly _, .poly _, h => exact ⟨h.1, h.2.trans hB⟩

theorem SRel.nonneg {a : Scalar R} {b : Scalar K} (h : SRel F G B a b) : 0 ≤ B := by
  match a, b, h with
  | .k _, .k _, h => exact (abs_nonneg _).trans h.2
  | .var _, .var _, h => exact zero_le_one.trans h.2
  | .mono _, .mono _, h => exact (abs_nonneg _).trans h.2
  | .poly _, .poly _, h => exact (lnorm_nonneg _).trans h.2

theorem mrel_const {x : R} {q : K} (h : CRel F G x q) : MRel F G (kToMono x) (kToMono q) :=
  ⟨h, rfl, List.Forall₂.nil⟩

theorem Fit.mrel_var (hf : Fit F G B) {v : Var R} {w : Var K} (h : VRel F v w) :
    MRel F G v.toMono w.toMono :=
  ⟨hf.crel_one, rfl, List.Forall₂.cons h List.Forall₂.nil⟩

/-! ## Predicates -/

theorem MRel.isConstant {m : Mono R} {n : Mono K} (h : MRel F G m n) :
    m.isConstant = n.isConstant := by
  have := forall₂_nil_iff h.2.2
  unfold Mono.isConstant
  rw [Bool.eq_iff_iff, List.isEmpty_iff, List.isEmpty_iff]
  exact this

theorem MRel.isDegreeOne {m : Mono R} {n : Mono K} (h : MRel F G m n) {v : Var R} {w : Var K}
    (hv : VRel F v w) : Go.Rel (· = ·) (m.isDegreeOne v) (n.isDegreeOne w) := by
  unfold Mono.isDegreeOne
  refine Go.Rel.bind h.check (fun _ _ _ => Go.Rel.bind hv.check (fun _ _ _ => ?_))
  obtain ⟨c, es, vs⟩ := m
  obtain ⟨c', es', vs'⟩ := n
  obtain ⟨_, he, hvs⟩ := h
  simp only at he hvs
  subst he
  cases hvs with
  | nil => exact rfl
  | cons hx hvs =>
    cases hvs with
    | nil =>
      match es with
      | [] => exact rfl
      | [e] =>
        simp only
        rw [hx.1, hv.1]; exact rfl
      | _ :: _ :: _ => exact rfl
    | cons _ _ => exact rfl

theorem matchesLoop_rel {all : List (Var R)} {all' : List (Var K)} (ha : List.Forall₂ (VRel F) all all')
    {vs : List (Var R)} {vs' : List (Var K)} (hv : List.Forall₂ (VRel F) vs vs') :
    ∀ es fs, matchesLoop all vs es fs = matchesLoop all' vs' es fs := by
  induction hv with
  | nil => intro es fs; simp [matchesLoop]
  | cons hx _ ih =>
    intro es fs
    match es, fs with
    | [], _ => simp [matchesLoop]
    | _ :: _, [] => simp [matchesLoop]
    | e :: es, f :: fs =>
      rw [matchesLoop, matchesLoop, findVar_rel hx.1 ha, ih es fs]

theorem MRel.matchesFormOf {m r : Mono R} {n s : Mono K} (h : MRel F G m n) (h' : MRel F G r s) :
    Go.Rel (· = ·) (m.matchesFormOf r) (n.matchesFormOf s) := by
  unfold Mono.matchesFormOf
  refine Go.Rel.bind h.check (fun _ _ _ => Go.Rel.bind h'.check (fun _ _ _ => ?_))
  refine Go.rel_ite (by rw [h.length, h'.length]) (fun _ => rfl) (fun _ => ?_)
  rw [matchesLoop_rel h'.2.2 h.2.2, h.2.1, h'.2.1]
  exact rfl

theorem MRel.degree {m : Mono R} {n : Mono K} (h : MRel F G m n) :
    Go.Rel (· = ·) m.degree n.degree := by
  unfold Mono.degree
  refine Go.Rel.bind h.check (fun _ _ _ => ?_)
  rw [h.2.1]; exact rfl

theorem ldegree_rel {l : List (Mono R)} {l' : List (Mono K)} (h : List.Forall₂ (MRel F G) l l') :
    Go.Rel (· = ·) (Poly.degree ⟨l⟩) (Poly.degree ⟨l'⟩) := by
  unfold Poly.degree
  refine Go.Rel.bind (lcheck_rel h) (fun _ _ _ => ?_)
  refine Go.rel_foldlM (A := MRel F G) (fun _ _ c d => c = d) ?_ h 0 0 rfl
  rintro a b _ _ c _ hab rfl
  refine Go.Rel.bind hab.degree ?_
  rintro d _ rfl
  exact rfl

theorem variables_rel {l : List (Mono R)} {l' : List (Mono K)} (h : List.Forall₂ (MRel F G) l l') :
    List.Forall₂ (VRel F) (Poly.variables ⟨l⟩) (Poly.variables ⟨l'⟩) := by
  unfold Poly.variables
  apply uniqueVars_rel
  induction h with
  | nil => exact List.Forall₂.nil
  | cons hx _ ih => exact List.rel_append hx.2.2 ih

theorem MRel.isVariable {m : Mono R} {n : Mono K} (hf : Fit F G B) (h : MRel F G m n) {v : Var R}
    {w : Var K} (hv : VRel F v w) :
    Go.Rel (fun b b' => b = b' ∧ (b' = true → n.coeff = 1)) (m.isVariable v) (n.isVariable w) := by
  unfold Mono.isVariable
  refine Go.Rel.bind h.check (fun _ _ _ => Go.Rel.bind hv.check (fun _ _ _ =>
    Go.Rel.bind (h.isDegreeOne hv) ?_))
  rintro b _ rfl
  rw [h.1.feq' hf.crel_one]
  refine Go.rel_pure ⟨rfl, fun h1 => ?_⟩
  simpa using (Bool.and_eq_true_iff.1 h1).2

theorem MRel.toVariable {m : Mono R} {n : Mono K} (h : MRel F G m n) :
    Go.Rel (VRel F) m.toVariable n.toVariable := by
  unfold Mono.toVariable
  refine Go.Rel.bind h.check (fun _ _ _ => ?_)
  have hv := h.2.2
  generalize hm : m.vars = vs at hv
  generalize hn : n.vars = ws at hv
  cases hv with
  | nil => exact Go.rel_throw _
  | cons hx _ =>
    refine Go.Rel.bind (h.isDegreeOne hx) ?_
    rintro b _ rfl
    exact Go.rel_ite Iff.rfl (fun _ => Go.rel_pure hx) (fun _ => Go.rel_throw _)

/-! ## Simplification -/

theorem MRel.asSimplified {m : Mono R} {n : Mono K} (hf : Fit F G B) (h : MRel F G m n)
    (hB : |n.coeff| ≤ B) : Go.Rel (SRel F G B) m.asSimplified n.asSimplified := by
  unfold Mono.asSimplified
  have hk : SRel F G B (.k m.coeff) (.k n.coeff) := ⟨h.1, hB⟩
  have hm : SRel F G B (.mono m) (.mono n) := ⟨h, hB⟩
  have hz : SRel F G B (.k GoNum.zero) (.k GoNum.zero) :=
    ⟨crel_zero, by rw [gn_zero, abs_zero]; exact (abs_nonneg _).trans hB⟩
  refine Go.Rel.bind h.check (fun _ _ _ => ?_)
  refine Go.rel_ite (by rw [h.isConstant]) (fun _ => Go.rel_pure hk) (fun _ => ?_)
  refine Go.rel_ite (by rw [h.1.feq' crel_zero]; exact Iff.rfl) (fun _ => Go.rel_pure hz)
    (fun hnz => ?_)
  obtain ⟨c, es, vs⟩ := m
  obtain ⟨c', es', vs'⟩ := n
  obtain ⟨hc, he, hvs⟩ := h
  simp only at he hvs hc hB hnz hk hm ⊢
  subst he
  have gen : Go.Rel (SRel F G B)
      (if es.all (fun e => decide (e = 0)) then pure (Scalar.k c) else pure (Scalar.mono ⟨c, es, vs⟩))
      (if es.all (fun e => decide (e = 0)) then pure (Scalar.k c')
        else pure (Scalar.mono ⟨c', es, vs'⟩)) :=
    Go.rel_ite Iff.rfl (fun _ => Go.rel_pure hk) (fun _ => Go.rel_pure hm)
  cases hvs with
  | nil => exact gen
  | cons hx hvs =>
    cases hvs with
    | cons _ _ => exact gen
    | nil =>
      match es with
      | [] => exact gen
      | _ :: _ :: _ => exact gen
      | [e] =>
        refine Go.rel_ite (by rw [hc.feq' hf.crel_one]; exact Iff.rfl) (fun h1 => ?_)
          (fun _ => Go.rel_ite Iff.rfl (fun _ => Go.rel_pure hk) (fun _ => Go.rel_pure hm))
        refine Go.rel_pure ⟨hx, ?_⟩
        have : c' = 1 := by
          have h2 := (Bool.and_eq_true_iff.1 h1).1
          exact (F.feq hc.1 F.one).1 h2
        rwa [this, abs_one] at hB

theorem insertMono_rel (hf : Fit F G B) {m : Mono R} {n : Mono K} (h : MRel F G m n)
    {l : List (Mono R)} {l' : List (Mono K)} (hl : List.Forall₂ (MRel F G) l l')
    (hB : |n.coeff| + lnorm l' ≤ B) :
    Go.Rel (LRel F G (|n.coeff| + lnorm l')) (insertMono m l) (insertMono n l') := by
  induction hl with
  | nil => exact ⟨List.Forall₂.cons h List.Forall₂.nil, by simp⟩
  | @cons e e' es es' hx hxs ih =>
    rw [lnorm_cons] at hB ⊢
    unfold insertMono
    refine Go.Rel.bind (hx.matchesFormOf h) ?_
    rintro b _ rfl
    refine Go.rel_ite Iff.rfl (fun _ => ?_) (fun _ => ?_)
    · refine Go.rel_pure ⟨List.Forall₂.cons ⟨hf.add hx.1 h.1 ?_, hx.2⟩ hxs, ?_⟩
      · have := lnorm_nonneg es'; linarith
      · rw [lnorm_cons]
        have := abs_add_le e'.coeff n.coeff
        simp only [gn_add]
        linarith
    · have := abs_nonneg e'.coeff
      refine Go.Rel.bind (ih (by linarith)) (fun a b hab => Go.rel_pure ⟨List.Forall₂.cons hx hab.1, ?_⟩)
      rw [lnorm_cons]
      linarith [hab.2]

theorem simplify_rel (hf : Fit F G B) {l : List (Mono R)} {l' : List (Mono K)}
    (h : LRel F G B l l') :
    Go.Rel (fun p q => LRel F G B p.monos q.monos) (Poly.simplify ⟨l⟩) (Poly.simplify ⟨l'⟩) := by
  unfold Poly.simplify
  refine Go.Rel.bind (lcheck_rel h.1) (fun _ _ _ => ?_)
  let I : List (Mono R) → List (Mono K) → R × List (Mono R) → K × List (Mono K) → Prop :=
    fun _ r' st st' => CRel F G st.1 st'.1 ∧ List.Forall₂ (MRel F G) st.2 st'.2 ∧
      |st'.1| + lnorm st'.2 + lnorm r' ≤ B
  have step := Go.rel_foldlM (A := MRel F G) (f := simplifyStep) (g := simplifyStep) I
    (by
      rintro m n r r' ⟨c, acc⟩ ⟨c', acc'⟩ hm ⟨h1, h2, h3⟩
      simp only [lnorm_cons] at h1 h2 h3
      have p1 := lnorm_nonneg acc'
      have p2 := lnorm_nonneg r'
      have p3 := abs_nonneg c'
      unfold simplifyStep
      refine Go.rel_ite (by rw [hm.isConstant]) (fun _ => ?_) (fun _ => ?_)
      · refine Go.rel_pure ⟨hf.add h1 hm.1 (by linarith), h2, ?_⟩
        have := abs_add_le c' n.coeff
        simp only [gn_add]
        linarith
      · refine Go.Rel.bind (insertMono_rel hf hm h2 (by linarith)) (fun a b hab =>
          Go.rel_pure ⟨h1, hab.1, ?_⟩)
        simp only
        linarith [hab.2]) h.1 (GoNum.zero, []) (GoNum.zero, [])
      ⟨crel_zero, List.Forall₂.nil, by simpa using h.2⟩
  refine Go.Rel.bind step ?_
  rintro ⟨c, acc⟩ ⟨c', acc'⟩ ⟨h1, h2, h3⟩
  simp only [lnorm_nil, add_zero] at h1 h2 h3
  have filt : ∀ {a : List (Mono R)} {a' : List (Mono K)}, List.Forall₂ (MRel F G) a a' →
      List.Forall₂ (MRel F G) (a.filter (fun m => !GoNum.feq m.coeff GoNum.zero))
        (a'.filter (fun m => !GoNum.feq m.coeff GoNum.zero)) := by
    intro a a' ha
    induction ha with
    | nil => exact List.Forall₂.nil
    | cons hx _ ih =>
      rw [List.filter_cons, List.filter_cons, hx.1.feq' crel_zero]
      simp only [gn_zero]
      split
      · exact List.Forall₂.cons hx ih
      · exact ih
  have filtn : ∀ a' : List (Mono K),
      lnorm (a'.filter (fun m => !GoNum.feq m.coeff GoNum.zero)) ≤ lnorm a' := by
    intro a'
    induction a' with
    | nil => exact le_refl _
    | cons m a' ih =>
      rw [List.filter_cons]
      have := abs_nonneg m.coeff
      split
      · rw [lnorm_cons, lnorm_cons]; linarith
      · rw [lnorm_cons]; linarith
  have hout : LRel F G B
      ((if GoNum.feq c GoNum.zero then [] else [kToMono c]) ++
        acc.filter (fun m => !GoNum.feq m.coeff GoNum.zero))
      ((if GoNum.feq c' GoNum.zero then [] else [kToMono c']) ++
        acc'.filter (fun m => !GoNum.feq m.coeff GoNum.zero)) := by
    have e := h1.feq' (crel_zero (F := F) (G := G))
    have e0 : (GoNum.feq c GoNum.zero : Bool) = GoNum.feq c' GoNum.zero := e
    rw [e0]
    have hfn := filtn acc'
    have := abs_nonneg c'
    split
    · exact ⟨filt h2, by simp only [List.nil_append]; linarith⟩
    · refine ⟨List.Forall₂.cons (mrel_const h1) (filt h2), ?_⟩
      simp only [List.singleton_append, lnorm_cons, kToMono]
      linarith
  refine Go.rel_pure ?_
  have he := forall₂_nil_iff hout.1
  simp only
  generalize (if GoNum.feq c GoNum.zero then [] else [kToMono c]) ++
        acc.filter (fun m => !GoNum.feq m.coeff GoNum.zero) = o at hout he ⊢
  generalize (if GoNum.feq c' GoNum.zero then [] else [kToMono c']) ++
        acc'.filter (fun m => !GoNum.feq m.coeff GoNum.zero) = o' at hout he ⊢
  by_cases ho : o = []
  · have ho' := he.1 ho
    subst ho; subst ho'
    refine ⟨List.Forall₂.cons (mrel_const crel_zero) List.Forall₂.nil, ?_⟩
    simpa [kToMono] using (lnorm_nonneg l').trans h.2
  · have ho' : o' ≠ [] := fun h => ho (he.2 h)
    rw [if_neg (by rwa [List.isEmpty_iff]), if_neg (by rwa [List.isEmpty_iff])]
    exact hout

theorem lconstant_rel {l : List (Mono R)} {l' : List (Mono K)} (h : LRel F G B l l') :
    Go.Rel (fun x q => CRel F G x q ∧ |q| ≤ B) (Poly.constant ⟨l⟩) (Poly.constant ⟨l'⟩) := by
  unfold Poly.constant
  refine Go.Rel.bind (lcheck_rel h.1) (fun _ _ _ => ?_)
  obtain ⟨h1, h2⟩ := h
  simp only
  induction h1 with
  | nil => exact Go.rel_pure ⟨crel_zero, by simpa using h2⟩
  | @cons m n l l' hx _ ih =>
    rw [List.find?_cons, List.find?_cons, hx.isConstant]
    rw [lnorm_cons] at h2
    have := lnorm_nonneg l'
    have := abs_nonneg n.coeff
    cases n.isConstant with
    | true => exact Go.rel_pure ⟨hx.1, by linarith⟩
    | false => exact ih (by linarith)

theorem lasSimplified_rel (hf : Fit F G B) {l : List (Mono R)} {l' : List (Mono K)}
    (h : LRel F G B l l') :
    Go.Rel (SRel F G B) (Poly.asSimplified ⟨l⟩) (Poly.asSimplified ⟨l'⟩) := by
  unfold Poly.asSimplified
  refine Go.Rel.bind (simplify_rel hf h) (fun p q hpq => ?_)
  obtain ⟨ms⟩ := p
  obtain ⟨ns⟩ := q
  refine Go.Rel.bind (ldegree_rel hpq.1) ?_
  rintro d _ rfl
  have hp : SRel F G B (.poly ⟨ms⟩) (.poly ⟨ns⟩) := hpq
  refine Go.rel_ite Iff.rfl (fun _ => Go.Rel.bind (lconstant_rel hpq) (fun x q h => Go.rel_pure h))
    (fun _ => ?_)
  have hv := variables_rel hpq.1
  refine Go.rel_ite Iff.rfl (fun _ => ?_) (fun _ => ?_)
  · simp only at hv hpq ⊢
    obtain ⟨hl, hn⟩ := hpq
    revert hv
    generalize Poly.variables ⟨ms⟩ = vs
    generalize Poly.variables ⟨ns⟩ = ws
    intro hv
    cases hl with
    | nil => cases hv <;> exact Go.rel_pure hp
    | cons hx hl =>
      cases hl with
      | cons _ _ => cases hv <;> exact Go.rel_pure hp
      | nil =>
        simp only [lnorm_cons, lnorm_nil, add_zero] at hn
        cases hv with
        | nil => exact Go.rel_throw _
        | cons hv _ =>
          refine Go.Rel.bind (hx.isVariable hf hv) ?_
          rintro b _ ⟨rfl, hb⟩
          refine Go.rel_ite Iff.rfl (fun hb1 => ?_) (fun _ => Go.rel_pure ⟨hx, hn⟩)
          refine Go.Rel.bind hx.toVariable (fun v w hvw => Go.rel_pure ⟨hvw, ?_⟩)
          rwa [hb hb1, abs_one] at hn
  · obtain ⟨hl, hn⟩ := hpq
    cases hl with
    | nil => exact Go.rel_pure hp
    | cons hx hl =>
      cases hl with
      | cons _ _ => exact Go.rel_pure hp
      | nil =>
        simp only [lnorm_cons, lnorm_nil, add_zero] at hn
        exact Go.rel_pure ⟨hx, hn⟩

theorem SRel.asSimplified (hf : Fit F G B) {a : Scalar R} {b : Scalar K} (h : SRel F G B a b) :
    Go.Rel (SRel F G B) a.asSimplified b.asSimplified := by
  match a, b, h with
  | .k _, .k _, h => exact Go.rel_pure h
  | .var _, .var _, h => exact Go.rel_pure h
  | .mono _, .mono _, h => exact h.1.asSimplified hf h.2
  | .poly _, .poly _, h => exact lasSimplified_rel hf h

/-! ## Plus -/

theorem constantIndex_rel {l : List (Mono R)} {l' : List (Mono K)}
    (h : List.Forall₂ (MRel F G) l l') :
    Poly.constantIndex ⟨l⟩ = Poly.constantIndex ⟨l'⟩ := by
  unfold Poly.constantIndex
  simp only
  induction h with
  | nil => rfl
  | cons hx _ ih => rw [List.findIdx?_cons, List.findIdx?_cons, hx.isConstant, ih]

theorem varIndexLoop_rel {v : Var R} {w : Var K} (hv : VRel F v w) {l : List (Mono R)}
    {l' : List (Mono K)} (h : List.Forall₂ (MRel F G) l l') :
    Go.Rel (· = ·) (varIndexLoop v l) (varIndexLoop w l') := by
  induction h with
  | nil => exact rfl
  | cons hx _ ih =>
    unfold varIndexLoop
    refine Go.Rel.bind (hx.isDegreeOne hv) ?_
    rintro b _ rfl
    refine Go.rel_ite Iff.rfl (fun _ => rfl) (fun _ => Go.Rel.bind ih ?_)
    rintro i _ rfl
    exact rfl

theorem variableIndex_rel {v : Var R} {w : Var K} (hv : VRel F v w) {l : List (Mono R)}
    {l' : List (Mono K)} (h : List.Forall₂ (MRel F G) l l') :
    Go.Rel (· = ·) (Poly.variableIndex ⟨l⟩ v) (Poly.variableIndex ⟨l'⟩ w) := by
  unfold Poly.variableIndex
  exact Go.Rel.bind (lcheck_rel h) (fun _ _ _ => Go.Rel.bind hv.check (fun _ _ _ =>
    varIndexLoop_rel hv h))

theorem modify_add_rel (hf : Fit F G B) {x : R} {q : K} (hx : CRel F G x q) {l : List (Mono R)}
    {l' : List (Mono K)} (h : List.Forall₂ (MRel F G) l l') (i : ℕ) (hB : lnorm l' + |q| ≤ B) :
    LRel F G (lnorm l' + |q|)
      (l.modify i (fun m => { m with coeff := GoNum.add m.coeff x }))
      (l'.modify i (fun m => { m with coeff := GoNum.add m.coeff q })) := by
  induction h generalizing i with
  | nil => simpa using ⟨List.Forall₂.nil, by simp⟩
  | @cons m n l l' hm hl ih =>
    rw [lnorm_cons] at hB ⊢
    have p1 := lnorm_nonneg l'
    have p2 := abs_nonneg n.coeff
    match i with
    | 0 =>
      rw [List.modify_zero_cons, List.modify_zero_cons]
      refine ⟨List.Forall₂.cons ⟨hf.add hm.1 hx (by linarith), hm.2⟩ hl, ?_⟩
      rw [lnorm_cons]
      have := abs_add_le n.coeff q
      simp only [gn_add]
      linarith
    | i + 1 =>
      rw [List.modify_succ_cons, List.modify_succ_cons]
      have := ih i (by linarith)
      refine ⟨List.Forall₂.cons hm this.1, ?_⟩
      rw [lnorm_cons]
      linarith [this.2]

theorem LRel.append {l r : List (Mono R)} {l' r' : List (Mono K)} (h : LRel F G B1 l l')
    (h' : LRel F G B2 r r') : LRel F G (B1 + B2) (l ++ r) (l' ++ r') :=
  ⟨List.rel_append h.1 h'.1, by rw [lnorm_append]; exact add_le_add h.2 h'.2⟩

theorem LRel.mono {l : List (Mono R)} {l' : List (Mono K)} (h : LRel F G B1 l l') (hB : B1 ≤ B2) :
    LRel F G B2 l l' := ⟨h.1, h.2.trans hB⟩

theorem MRel.single {m : Mono R} {n : Mono K} (h : MRel F G m n) (hB : |n.coeff| ≤ B) :
    LRel F G B [m] [n] := ⟨List.Forall₂.cons h List.Forall₂.nil, by simpa using hB⟩

theorem plusK_rel (hf : Fit F G (B1 + B2)) {l : List (Mono R)} {l' : List (Mono K)}
    (h : LRel F G B1 l l') {x : R} {q : K} (hx : CRel F G x q) (hq : |q| ≤ B2) :
    Go.Rel (SRel F G (B1 + B2)) (Poly.plusK ⟨l⟩ x) (Poly.plusK ⟨l'⟩ q) := by
  unfold Poly.plusK
  refine Go.Rel.bind (lcheck_rel h.1) (fun _ _ _ => ?_)
  rw [constantIndex_rel h.1]
  refine lasSimplified_rel hf ?_
  cases Poly.constantIndex ⟨l'⟩ with
  | none => exact h.append ((mrel_const hx).single hq)
  | some i =>
    have := add_le_add h.2 hq
    exact (modify_add_rel hf hx h.1 i this).mono this

theorem plusVar_rel (hf : Fit F G (B1 + B2)) {l : List (Mono R)} {l' : List (Mono K)}
    (h : LRel F G B1 l l') {v : Var R} {w : Var K} (hv : VRel F v w) (hB : 1 ≤ B2) :
    Go.Rel (SRel F G (B1 + B2)) (Poly.plusVar ⟨l⟩ v) (Poly.plusVar ⟨l'⟩ w) := by
  unfold Poly.plusVar
  refine Go.Rel.bind (lcheck_rel h.1) (fun _ _ _ => Go.Rel.bind hv.check (fun _ _ _ =>
    Go.Rel.bind (variableIndex_rel hv h.1) ?_))
  rintro i _ rfl
  have fin : ∀ x y, LRel F G (B1 + B2) x y →
      Go.Rel (SRel F G (B1 + B2)) (Poly.asSimplified ⟨x⟩) (Poly.asSimplified ⟨y⟩) :=
    fun _ _ h => lasSimplified_rel hf h
  have ha : |(1 : K)| ≤ B2 := by rwa [abs_one]
  cases i with
  | none =>
    exact fin _ _ (h.append ((hf.mrel_var hv).single (by simpa [Var.toMono] using ha)))
  | some i =>
    have := add_le_add h.2 ha
    exact fin _ _ ((modify_add_rel hf hf.crel_one h.1 i this).mono this)

theorem plusPoly_rel (hf : Fit F G (B1 + B2)) {l r : List (Mono R)} {l' r' : List (Mono K)}
    (h : LRel F G B1 l l') (h' : LRel F G B2 r r') :
    Go.Rel (SRel F G (B1 + B2)) (Poly.plusPoly ⟨l⟩ ⟨r⟩) (Poly.plusPoly ⟨l'⟩ ⟨r'⟩) := by
  unfold Poly.plusPoly
  exact Go.Rel.bind (lcheck_rel h.1) (fun _ _ _ => Go.Rel.bind (lcheck_rel h'.1) (fun _ _ _ =>
    Go.Rel.bind (lasSimplified_rel hf (h.append h')) (fun _ _ h => h.asSimplified hf)))

theorem plusMono_rel (hf : Fit F G (B1 + B2)) {l : List (Mono R)} {l' : List (Mono K)}
    (h : LRel F G B1 l l') {m : Mono R} {n : Mono K} (hm : MRel F G m n) (hB : |n.coeff| ≤ B2) :
    Go.Rel (SRel F G (B1 + B2)) (Poly.plusMono ⟨l⟩ m) (Poly.plusMono ⟨l'⟩ n) := by
  unfold Poly.plusMono
  exact Go.Rel.bind (lcheck_rel h.1) (fun _ _ _ => Go.Rel.bind hm.check (fun _ _ _ =>
    Go.Rel.bind (plusPoly_rel hf h (hm.single hB)) (fun _ _ h => h.asSimplified hf)))

theorem MRel.plus (hf : Fit F G (B1 + B2)) {m : Mono R} {n : Mono K} (hm : MRel F G m n)
    (hB : |n.coeff| ≤ B1) {a : Scalar R} {b : Scalar K} (h : SRel F G B2 a b) :
    Go.Rel (SRel F G (B1 + B2)) (m.plus a) (n.plus b) := by
  unfold Mono.plus
  refine Go.Rel.bind hm.check (fun _ _ _ => Go.Rel.bind h.check (fun _ _ _ => ?_))
  have fin : ∀ x y, SRel F G (B1 + B2) x y →
      Go.Rel (SRel F G (B1 + B2)) (Scalar.asSimplified x) (Scalar.asSimplified y) :=
    fun _ _ h => h.asSimplified hf
  match a, b, h with
  | .k x, .k q, h =>
    have hB' := add_le_add hB h.2
    refine Go.rel_ite (by rw [hm.isConstant]) (fun _ => ?_) (fun _ => ?_)
    · exact fin (.k _) (.k _) ⟨hf.add hm.1 h.1 hB', (abs_add_le _ _).trans hB'⟩
    · exact fin (.poly ⟨_⟩) (.poly ⟨_⟩) ((hm.single hB).append ((mrel_const h.1).single h.2))
  | .var v, .var w, h =>
    have ha : |(1 : K)| ≤ B2 := by rw [abs_one]; exact h.2
    have hB' := add_le_add hB ha
    refine Go.Rel.bind (hm.isDegreeOne h.1) ?_
    rintro b _ rfl
    refine Go.rel_ite Iff.rfl (fun _ => ?_) (fun _ => ?_)
    · exact fin (.mono _) (.mono _) ⟨⟨hf.add hm.1 hf.crel_one hB', hm.2⟩, (abs_add_le _ _).trans hB'⟩
    · exact fin (.poly ⟨_⟩) (.poly ⟨_⟩) ((hm.single hB).append ((hf.mrel_var h.1).single ha))
  | .mono r, .mono s, h =>
    have hB' := add_le_add hB h.2
    refine Go.Rel.bind (hm.matchesFormOf h.1) ?_
    rintro b _ rfl
    refine Go.rel_ite Iff.rfl (fun _ => ?_) (fun _ => ?_)
    · exact fin (.mono _) (.mono _) ⟨⟨hf.add hm.1 h.1.1 hB', hm.2⟩, (abs_add_le _ _).trans hB'⟩
    · exact fin (.poly ⟨_⟩) (.poly ⟨_⟩) ((hm.single hB).append (h.1.single h.2))
  | .poly p, .poly q, h =>
    rw [add_comm B1 B2] at hf fin ⊢
    exact Go.Rel.bind (plusMono_rel hf h hm hB) fin

theorem lplus_rel (hf : Fit F G (B1 + B2)) {l : List (Mono R)} {l' : List (Mono K)}
    (hl : LRel F G B1 l l') {a : Scalar R} {b : Scalar K} (h : SRel F G B2 a b) :
    Go.Rel (SRel F G (B1 + B2)) (Poly.plus ⟨l⟩ a) (Poly.plus ⟨l'⟩ b) := by
  match a, b, h with
  | .k _, .k _, h => exact plusK_rel hf hl h.1 h.2
  | .var _, .var _, h => exact plusVar_rel hf hl h.1 h.2
  | .mono _, .mono _, h => exact plusMono_rel hf hl h.1 h.2
  | .poly _, .poly _, h => exact plusPoly_rel hf hl h

theorem VRel.plus (hf : Fit F G (B1 + B2)) {v : Var R} {w : Var K} (hv : VRel F v w)
    (hB : 1 ≤ B1) {a : Scalar R} {b : Scalar K} (h : SRel F G B2 a b) :
    Go.Rel (SRel F G (B1 + B2)) (v.plus a) (w.plus b) := by
  have ha : |(1 : K)| ≤ B1 := by rw [abs_one]; exact hB
  unfold Var.plus
  refine Go.Rel.bind hv.check (fun _ _ _ => ?_)
  have fin : ∀ x y, SRel F G (B1 + B2) x y →
      Go.Rel (SRel F G (B1 + B2)) (Scalar.asSimplified x) (Scalar.asSimplified y) :=
    fun _ _ h => h.asSimplified hf
  match a, b, h with
  | .k x, .k q, h =>
    exact fin (.poly ⟨_⟩) (.poly ⟨_⟩) (((hf.mrel_var hv).single ha).append ((mrel_const h.1).single h.2))
  | .var u, .var z, h =>
    have ha2 : |(1 : K)| ≤ B2 := by rw [abs_one]; exact h.2
    refine Go.rel_ite (by rw [hv.1, h.1.1]) (fun _ => ?_) (fun _ => ?_)
    · have h2 : |((2 : Int) : K)| ≤ B1 + B2 := by
        have e : ((2 : Int) : K) = 1 + 1 := by push_cast; norm_num
        rw [e]
        exact (abs_add_le _ _).trans (add_le_add ha ha2)
      have hg : ((2 : Int) : K) ∈ G := by
        have e : ((2 : Int) : K) = 1 + 1 := by push_cast; norm_num
        rw [e]
        exact G.add_mem hf.one hf.one
      exact fin (.mono ⟨GoNum.ofInt 2, [1], [v]⟩) (.mono ⟨GoNum.ofInt 2, [1], [w]⟩) ⟨⟨⟨F.ofInt 2 (hf.able _ hg h2), hg⟩, rfl,
        List.Forall₂.cons hv List.Forall₂.nil⟩, h2⟩
    · exact fin (.poly ⟨_⟩) (.poly ⟨_⟩) (((hf.mrel_var hv).single ha).append ((hf.mrel_var h.1).single ha2))
  | .mono r, .mono s, h =>
    rw [add_comm B1 B2] at hf fin ⊢
    exact Go.Rel.bind (h.1.plus hf h.2 (a := .var v) (b := .var w) ⟨hv, hB⟩) fin
  | .poly p, .poly q, h =>
    rw [add_comm B1 B2] at hf fin ⊢
    exact Go.Rel.bind (plusVar_rel hf h hv hB) fin

/-- Addition on floats does what addition on exact numbers does. -/
theorem SRel.plus (hf : Fit F G (B1 + B2)) {a c : Scalar R} {b d : Scalar K} (h : SRel F G B1 a b)
    (h' : SRel F G B2 c d) : Go.Rel (SRel F G (B1 + B2)) (a.plus c) (b.plus d) := by
  match a, b, h with
  | .k x, .k q, h =>
    show Go.Rel _ (kPlus x c) (kPlus q d)
    unfold kPlus
    refine Go.Rel.bind h'.check (fun _ _ _ => ?_)
    have hf' := hf
    rw [add_comm B1 B2] at hf'
    match c, d, h' with
    | .k y, .k r, h' =>
      have hB := add_le_add h.2 h'.2
      exact Go.rel_pure ⟨hf.add h.1 h'.1 hB, (abs_add_le _ _).trans hB⟩
    | .var _, .var _, h' =>
      rw [add_comm B1 B2]
      exact h'.1.plus hf' h'.2 (a := .k x) (b := .k q) h
    | .mono _, .mono _, h' =>
      rw [add_comm B1 B2]
      exact h'.1.plus hf' h'.2 (a := .k x) (b := .k q) h
    | .poly _, .poly _, h' =>
      rw [add_comm B1 B2]
      exact plusK_rel hf' h' h.1 h.2
  | .var _, .var _, h => exact h.1.plus hf h.2 h'
  | .mono _, .mono _, h => exact h.1.plus hf h.2 h'
  | .poly _, .poly _, h => exact lplus_rel hf h h'

/-! ## Products -/

/-- Grids of increasing fineness, such as the multiples of `2^-i`: a product of numbers of grades `i`
and `j` is of grade `i + j`. -/
structure Grids (K : Type) [Field K] where
  g : ℕ → AddSubgroup K
  one : ∀ i, 1 ∈ g i
  mul : ∀ {i j p q}, p ∈ g i → q ∈ g j → p * q ∈ g (i + j)

omit [LinearOrder K] [IsStrictOrderedRing K] in
theorem Grids.le (𝒢 : Grids K) {i j : ℕ} (h : i ≤ j) : 𝒢.g i ≤ 𝒢.g j := by
  intro q hq
  have := 𝒢.mul hq (𝒢.one (j - i))
  rwa [mul_one, Nat.add_sub_cancel' h] at this

omit [LinearOrder K] [IsStrictOrderedRing K] in
theorem Grids.int (𝒢 : Grids K) (k : Int) (i : ℕ) : (k : K) ∈ 𝒢.g i := by
  have := (𝒢.g i).zsmul_mem (𝒢.one i) k
  simpa using this

variable {𝒢 : Grids K} {i j : ℕ}

theorem CRel.grade {G' : AddSubgroup K} {x : R} {q : K} (h : CRel F G x q) (hG : G ≤ G') :
    CRel F G' x q := ⟨h.1, hG h.2⟩

theorem MRel.grade {G' : AddSubgroup K} {m : Mono R} {n : Mono K} (h : MRel F G m n) (hG : G ≤ G') :
    MRel F G' m n := ⟨h.1.grade hG, h.2⟩

theorem lrel_grade {G' : AddSubgroup K} {l : List (Mono R)} {l' : List (Mono K)}
    (h : List.Forall₂ (MRel F G) l l') (hG : G ≤ G') : List.Forall₂ (MRel F G') l l' :=
  h.imp (fun _ _ h => h.grade hG)

theorem SRel.grade {G' : AddSubgroup K} {a : Scalar R} {b : Scalar K} (h : SRel F G B a b)
    (hG : G ≤ G') : SRel F G' B a b := by
  match a, b, h with
  | .k _, .k _, h => exact ⟨h.1.grade hG, h.2⟩
  | .var _, .var _, h => exact h
  | .mono _, .mono _, h => exact ⟨h.1.grade hG, h.2⟩
  | .poly _, .poly _, h => exact ⟨lrel_grade h.1 hG, h.2⟩

theorem abs_mul_le_mul {p q : K} (hp : |p| ≤ B1) (hq : |q| ≤ B2) : |p * q| ≤ B1 * B2 := by
  rw [abs_mul]
  exact mul_le_mul hp hq (abs_nonneg _) ((abs_nonneg _).trans hp)

theorem CRel.mul (hf : Fit F (𝒢.g (i + j)) (B1 * B2)) {x y : R} {p q : K}
    (hx : CRel F (𝒢.g i) x p) (hy : CRel F (𝒢.g j) y q) (hp : |p| ≤ B1) (hq : |q| ≤ B2) :
    CRel F (𝒢.g (i + j)) (GoNum.mul x y) (p * q) :=
  ⟨F.mul hx.1 hy.1 (hf.able _ (𝒢.mul hx.2 hy.2) (abs_mul_le_mul hp hq)), 𝒢.mul hx.2 hy.2⟩

theorem addExponent_rel {vs : List (Var R)} {ws : List (Var K)} (h : List.Forall₂ (VRel F) vs ws)
    {v : Var R} {w : Var K} (hv : VRel F v w) (e : Int) (md : List Int) :
    Go.Rel (· = ·) (addExponent vs md (v, e)) (addExponent ws md (w, e)) := by
  unfold addExponent
  rw [findVar_rel hv.1 h]
  simp only
  cases findVar w ws <;> exact rfl

theorem forall₂_zip {vs : List (Var R)} {ws : List (Var K)} (h : List.Forall₂ (VRel F) vs ws) :
    ∀ es : List Int, List.Forall₂ (fun (a : Var R × Int) (b : Var K × Int) => VRel F a.1 b.1 ∧ a.2 = b.2)
      (vs.zip es) (ws.zip es) := by
  induction h with
  | nil => intro es; simp
  | cons hx _ ih =>
    intro es
    cases es with
    | nil => simp
    | cons e es => exact List.Forall₂.cons ⟨hx, rfl⟩ (ih es)

theorem addExponents_rel {all : List (Var R)} {all' : List (Var K)} (h : List.Forall₂ (VRel F) all all')
    {vs : List (Var R)} {ws : List (Var K)} (hv : List.Forall₂ (VRel F) vs ws) (es md : List Int) :
    Go.Rel (· = ·) ((vs.zip es).foldlM (addExponent all) md)
      ((ws.zip es).foldlM (addExponent all') md) := by
  refine Go.rel_foldlM (A := fun (a : Var R × Int) (b : Var K × Int) => VRel F a.1 b.1 ∧ a.2 = b.2)
    (fun _ _ c d => c = d) ?_ (forall₂_zip hv es) md md rfl
  rintro ⟨v, e⟩ ⟨w, _⟩ _ _ c _ ⟨hvw, rfl⟩ rfl
  exact addExponent_rel h hvw e c

theorem MRel.mulMono (hf : Fit F (𝒢.g (i + j)) (B1 * B2)) {m r : Mono R} {n s : Mono K}
    (h : MRel F (𝒢.g i) m n) (h' : MRel F (𝒢.g j) r s) (hm : |n.coeff| ≤ B1) (hr : |s.coeff| ≤ B2) :
    Go.Rel (fun a b => MRel F (𝒢.g (i + j)) a b ∧ b.coeff = n.coeff * s.coeff)
      (m.mulMono r) (n.mulMono s) := by
  unfold Mono.mulMono
  have hv := uniqueVars_rel (List.rel_append h.2.2 h'.2.2)
  simp only
  rw [hv.length_eq, h.2.1, h'.2.1]
  refine Go.Rel.bind (addExponents_rel hv h.2.2 _ _) ?_
  rintro md _ rfl
  refine Go.Rel.bind (addExponents_rel hv h'.2.2 _ _) ?_
  rintro md2 _ rfl
  exact Go.rel_pure ⟨⟨CRel.mul hf h.1 h'.1 hm hr, rfl, hv⟩, rfl⟩

theorem MRel.mulVar {m : Mono R} {n : Mono K} (h : MRel F G m n) {v : Var R} {w : Var K}
    (hv : VRel F v w) : MRel F G (m.mulVar v) (n.mulVar w) ∧ (n.mulVar w).coeff = n.coeff := by
  unfold Mono.mulVar
  rw [findVar_rel hv.1 h.2.2, h.2.1]
  cases findVar w n.vars with
  | none =>
    exact ⟨⟨h.1, rfl, List.rel_append h.2.2 (List.Forall₂.cons hv List.Forall₂.nil)⟩, rfl⟩
  | some k => exact ⟨⟨h.1, rfl, h.2.2⟩, rfl⟩

theorem mulMono_rel (hf : Fit F (𝒢.g (i + j)) (B1 * B2)) {l : List (Mono R)} {l' : List (Mono K)}
    (h : LRel F (𝒢.g i) B1 l l') {r : Mono R} {s : Mono K} (h' : MRel F (𝒢.g j) r s)
    (hr : |s.coeff| ≤ B2) :
    Go.Rel (SRel F (𝒢.g (i + j)) (B1 * B2)) (Poly.mulMono ⟨l⟩ r) (Poly.mulMono ⟨l'⟩ s) := by
  unfold Poly.mulMono
  refine Go.Rel.bind (lcheck_rel h.1) (fun _ _ _ => Go.Rel.bind h'.check (fun _ _ _ => ?_))
  have key : Go.Rel (fun a b => List.Forall₂ (MRel F (𝒢.g (i + j))) a b ∧
      lnorm b = lnorm l' * |s.coeff|) (l.mapM (fun m => m.mulMono r)) (l'.mapM (fun m => m.mulMono s)) := by
    obtain ⟨h1, h2⟩ := h
    induction h1 with
    | nil => exact Go.rel_pure ⟨List.Forall₂.nil, by simp⟩
    | @cons m n l l' hx _ ih =>
      rw [lnorm_cons] at h2
      have := lnorm_nonneg l'
      have := abs_nonneg n.coeff
      rw [List.mapM_cons, List.mapM_cons]
      refine Go.Rel.bind (hx.mulMono hf h' (by linarith) hr) (fun a b hab => ?_)
      refine Go.Rel.bind (ih (by linarith)) (fun as bs habs => ?_)
      refine Go.rel_pure ⟨List.Forall₂.cons hab.1 habs.1, ?_⟩
      rw [lnorm_cons, lnorm_cons, hab.2, abs_mul, habs.2, add_mul]
  refine Go.Rel.bind key (fun a b hab => lasSimplified_rel hf ⟨hab.1, ?_⟩)
  rw [hab.2]
  exact mul_le_mul h.2 hr (abs_nonneg _) ((lnorm_nonneg _).trans h.2)

theorem mulK_rel (hf : Fit F (𝒢.g (i + j)) (B1 * B2)) {l : List (Mono R)} {l' : List (Mono K)}
    (h : LRel F (𝒢.g i) B1 l l') {x : R} {q : K} (h' : CRel F (𝒢.g j) x q) (hr : |q| ≤ B2) :
    Go.Rel (SRel F (𝒢.g (i + j)) (B1 * B2)) (Poly.mulK ⟨l⟩ x) (Poly.mulK ⟨l'⟩ q) := by
  unfold Poly.mulK
  refine Go.Rel.bind (lcheck_rel h.1) (fun _ _ _ => lasSimplified_rel hf ?_)
  have key : List.Forall₂ (MRel F (𝒢.g (i + j))) (l.map (·.mulK x)) (l'.map (·.mulK q)) ∧
      lnorm (l'.map (·.mulK q)) = lnorm l' * |q| := by
    obtain ⟨h1, h2⟩ := h
    induction h1 with
    | nil => exact ⟨List.Forall₂.nil, by simp⟩
    | @cons m n l l' hx _ ih =>
      rw [lnorm_cons] at h2
      have := lnorm_nonneg l'
      have := abs_nonneg n.coeff
      obtain ⟨i1, i2⟩ := ih (by linarith)
      refine ⟨List.Forall₂.cons ⟨CRel.mul hf hx.1 h' (by linarith) hr, hx.2⟩ i1, ?_⟩
      rw [List.map_cons, lnorm_cons, lnorm_cons, i2, add_mul]
      simp only [Mono.mulK, gn_mul, abs_mul]
  refine ⟨key.1, ?_⟩
  rw [key.2]
  exact mul_le_mul h.2 hr (abs_nonneg _) ((lnorm_nonneg _).trans h.2)

theorem mulVar_rel (hf : Fit F G B) {l : List (Mono R)} {l' : List (Mono K)}
    (h : LRel F G B l l') {v : Var R} {w : Var K} (hv : VRel F v w) :
    Go.Rel (SRel F G B) (Poly.mulVar ⟨l⟩ v) (Poly.mulVar ⟨l'⟩ w) := by
  unfold Poly.mulVar
  refine Go.Rel.bind (lcheck_rel h.1) (fun _ _ _ => Go.Rel.bind hv.check (fun _ _ _ =>
    lasSimplified_rel hf ?_))
  obtain ⟨h1, h2⟩ := h
  have key : List.Forall₂ (MRel F G) (l.map (·.mulVar v)) (l'.map (·.mulVar w)) ∧
      lnorm (l'.map (·.mulVar w)) = lnorm l' := by
    clear h2
    induction h1 with
    | nil => exact ⟨List.Forall₂.nil, by simp⟩
    | cons hx _ ih =>
      refine ⟨List.Forall₂.cons (hx.mulVar hv).1 ih.1, ?_⟩
      rw [List.map_cons, lnorm_cons, lnorm_cons, ih.2, (hx.mulVar hv).2]
  exact ⟨key.1, key.2.le.trans h2⟩

theorem mulPoly_rel (hf : Fit F (𝒢.g (i + j)) (B1 * B2)) {l r : List (Mono R)}
    {l' r' : List (Mono K)} (h : LRel F (𝒢.g i) B1 l l') (h' : LRel F (𝒢.g j) B2 r r') :
    Go.Rel (SRel F (𝒢.g (i + j)) (B1 * B2)) (Poly.mulPoly ⟨l⟩ ⟨r⟩) (Poly.mulPoly ⟨l'⟩ ⟨r'⟩) := by
  have p1 : 0 ≤ B1 := (lnorm_nonneg _).trans h.2
  unfold Poly.mulPoly
  refine Go.Rel.bind (lcheck_rel h.1) (fun _ _ _ => Go.Rel.bind (lcheck_rel h'.1) (fun _ _ _ => ?_))
  refine Go.Rel.bind (A := SRel F (𝒢.g (i + j)) (B1 * B2)) ?_ (fun _ _ h => h.asSimplified hf)
  refine (Go.rel_foldlM (A := MRel F (𝒢.g j))
    (fun _ s' a b => lnorm s' ≤ B2 ∧ SRel F (𝒢.g (i + j)) (B1 * (B2 - lnorm s')) a b) ?_ h'.1
    (.k GoNum.zero) (.k GoNum.zero) ⟨h'.2, crel_zero, ?_⟩).mono (fun a b hab => ?_)
  · rintro m n t t' a b hmn ⟨hB, hab⟩
    rw [lnorm_cons] at hB hab
    have p2 := lnorm_nonneg t'
    have p3 := abs_nonneg n.coeff
    have hle : B1 * |n.coeff| ≤ B1 * B2 := mul_le_mul_of_nonneg_left (by linarith) p1
    refine Go.Rel.bind (mulMono_rel (hf.mono hle) h hmn le_rfl) (fun c d hcd => ?_)
    have e : B1 * (B2 - (|n.coeff| + lnorm t')) + B1 * |n.coeff| = B1 * (B2 - lnorm t') := by ring
    have hle2 : B1 * (B2 - lnorm t') ≤ B1 * B2 := mul_le_mul_of_nonneg_left (by linarith) p1
    refine (SRel.plus (hf.mono (by rw [e]; exact hle2)) hab hcd).mono (fun _ _ h => ⟨by linarith, ?_⟩)
    rwa [e] at h
  · rw [gn_zero, abs_zero]
    exact mul_nonneg p1 (by linarith [h'.2])
  · have := hab.2
    rwa [lnorm_nil, sub_zero] at this

theorem le_mul_of_one {a b : K} (ha : 0 ≤ a) (hb : 1 ≤ b) : a ≤ a * b := by
  calc a = a * 1 := (mul_one a).symm
    _ ≤ a * b := mul_le_mul_of_nonneg_left hb ha

theorem Fit.swap (hf : Fit F (𝒢.g (i + j)) (B1 * B2)) : Fit F (𝒢.g (j + i)) (B2 * B1) := by
  rw [Nat.add_comm, mul_comm]; exact hf

theorem lmul_rel (hf : Fit F (𝒢.g (i + j)) (B1 * B2)) {l : List (Mono R)} {l' : List (Mono K)}
    (hl : LRel F (𝒢.g i) B1 l l') {a : Scalar R} {b : Scalar K} (h : SRel F (𝒢.g j) B2 a b) :
    Go.Rel (SRel F (𝒢.g (i + j)) (B1 * B2)) (Poly.mul ⟨l⟩ a) (Poly.mul ⟨l'⟩ b) := by
  match a, b, h with
  | .k _, .k _, h => exact mulK_rel hf hl h.1 h.2
  | .var _, .var _, h =>
    refine mulVar_rel hf ⟨lrel_grade hl.1 (𝒢.le (Nat.le_add_right i j)), ?_⟩ h.1
    exact hl.2.trans (le_mul_of_one ((lnorm_nonneg _).trans hl.2) h.2)
  | .mono _, .mono _, h => exact mulMono_rel hf hl h.1 h.2
  | .poly _, .poly _, h => exact mulPoly_rel hf hl h

theorem MRel.mul (hf : Fit F (𝒢.g (i + j)) (B1 * B2)) {m : Mono R} {n : Mono K}
    (hm : MRel F (𝒢.g i) m n) (hB : |n.coeff| ≤ B1) {a : Scalar R} {b : Scalar K}
    (h : SRel F (𝒢.g j) B2 a b) :
    Go.Rel (SRel F (𝒢.g (i + j)) (B1 * B2)) (m.mul a) (n.mul b) := by
  unfold Mono.mul
  refine Go.Rel.bind hm.check (fun _ _ _ => Go.Rel.bind h.check (fun _ _ _ => ?_))
  match a, b, h with
  | .k x, .k q, h =>
    exact Go.rel_pure (a := Scalar.mono (m.mulK x)) (b := Scalar.mono (n.mulK q))
      ⟨⟨CRel.mul hf hm.1 h.1 hB h.2, hm.2⟩, abs_mul_le_mul hB h.2⟩
  | .var v, .var w, h =>
    refine Go.rel_pure (a := Scalar.mono (m.mulVar v)) (b := Scalar.mono (n.mulVar w))
      ⟨(hm.grade (𝒢.le (Nat.le_add_right i j))).mulVar h.1 |>.1, ?_⟩
    rw [(hm.mulVar h.1).2]
    exact hB.trans (le_mul_of_one ((abs_nonneg _).trans hB) h.2)
  | .mono r, .mono s, h =>
    refine Go.Rel.bind (hm.mulMono hf h.1 hB h.2) (fun a b hab => ?_)
    refine Go.rel_pure (a := Scalar.mono a) (b := Scalar.mono b) ⟨hab.1, ?_⟩
    rw [hab.2]
    exact abs_mul_le_mul hB h.2
  | .poly p, .poly q, h =>
    rw [Nat.add_comm i j, mul_comm B1 B2] at hf ⊢
    exact mulMono_rel hf h hm hB

theorem VRel.mul (hf : Fit F (𝒢.g (i + j)) (B1 * B2)) {v : Var R} {w : Var K} (hv : VRel F v w)
    (hB : 1 ≤ B1) {a : Scalar R} {b : Scalar K} (h : SRel F (𝒢.g j) B2 a b) :
    Go.Rel (SRel F (𝒢.g (i + j)) (B1 * B2)) (v.mul a) (w.mul b) := by
  have ha : |(1 : K)| ≤ B1 := by rw [abs_one]; exact hB
  have hBB : B2 ≤ B1 * B2 := by rw [mul_comm]; exact le_mul_of_one h.nonneg hB
  have hg : 𝒢.g j ≤ 𝒢.g (i + j) := 𝒢.le (Nat.le_add_left j i)
  unfold Var.mul
  refine Go.Rel.bind hv.check (fun _ _ _ => Go.Rel.bind h.check (fun _ _ _ => ?_))
  have fin : ∀ x y, SRel F (𝒢.g (i + j)) (B1 * B2) x y →
      Go.Rel (SRel F (𝒢.g (i + j)) (B1 * B2)) (Scalar.asSimplified x) (Scalar.asSimplified y) :=
    fun _ _ h => h.asSimplified hf
  match a, b, h with
  | .k x, .k q, h =>
    exact fin (.mono ⟨x, [1], [v]⟩) (.mono ⟨q, [1], [w]⟩)
      ⟨⟨h.1.grade hg, rfl, List.Forall₂.cons hv List.Forall₂.nil⟩, h.2.trans hBB⟩
  | .var u, .var z, h =>
    have h1 : |(1 : K)| ≤ B1 * B2 := by
      rw [abs_one]; exact h.2.trans hBB
    refine Go.rel_ite (by rw [hv.1, h.1.1]) (fun _ => ?_) (fun _ => ?_)
    · exact fin (.mono ⟨GoNum.one, [2], [v]⟩) (.mono ⟨GoNum.one, [2], [w]⟩)
        ⟨⟨hf.crel_one, rfl, List.Forall₂.cons hv List.Forall₂.nil⟩, h1⟩
    · exact fin (.mono ⟨GoNum.one, [1, 1], [v, u]⟩) (.mono ⟨GoNum.one, [1, 1], [w, z]⟩)
        ⟨⟨hf.crel_one, rfl, List.Forall₂.cons hv (List.Forall₂.cons h.1 List.Forall₂.nil)⟩, h1⟩
  | .mono r, .mono s, h =>
    rw [Nat.add_comm i j, mul_comm B1 B2] at hf fin ⊢
    exact Go.Rel.bind (h.1.mul hf h.2 (a := .var v) (b := .var w) ⟨hv, hB⟩) fin
  | .poly p, .poly q, h =>
    exact Go.Rel.bind (mulVar_rel hf ⟨lrel_grade h.1 hg, h.2.trans hBB⟩ hv) fin

/-- Multiplication on floats does what multiplication on exact numbers does. -/
theorem SRel.mul (hf : Fit F (𝒢.g (i + j)) (B1 * B2)) {a c : Scalar R} {b d : Scalar K}
    (h : SRel F (𝒢.g i) B1 a b) (h' : SRel F (𝒢.g j) B2 c d) :
    Go.Rel (SRel F (𝒢.g (i + j)) (B1 * B2)) (a.mul c) (b.mul d) := by
  match a, b, h with
  | .k x, .k q, h =>
    show Go.Rel _ (kMul x c) (kMul q d)
    unfold kMul
    refine Go.Rel.bind h'.check (fun _ _ _ => ?_)
    match c, d, h' with
    | .k y, .k r, h' =>
      exact Go.rel_pure (a := Scalar.k (GoNum.mul x y)) (b := Scalar.k (GoNum.mul q r))
        ⟨CRel.mul hf h.1 h'.1 h.2 h'.2, abs_mul_le_mul h.2 h'.2⟩
    | .var _, .var _, h' =>
      rw [Nat.add_comm i j, mul_comm B1 B2] at hf ⊢
      exact h'.1.mul hf h'.2 (a := .k x) (b := .k q) h
    | .mono _, .mono _, h' =>
      rw [Nat.add_comm i j, mul_comm B1 B2] at hf ⊢
      exact h'.1.mul hf h'.2 (a := .k x) (b := .k q) h
    | .poly _, .poly _, h' =>
      rw [Nat.add_comm i j, mul_comm B1 B2] at hf ⊢
      exact mulK_rel hf h' h.1 h.2
  | .var _, .var _, h => exact h.1.mul hf h.2 h'
  | .mono _, .mono _, h => exact h.1.mul hf h.2 h'
  | .poly _, .poly _, h => exact lmul_rel hf h h'

/-! ## Minus, Power -/

theorem SRel.plusF64 (hf : Fit F G (B1 + B2)) {a : Scalar R} {b : Scalar K} (h : SRel F G B1 a b)
    {x : R} {q : K} (hx : CRel F G x q) (hq : |q| ≤ B2) :
    Go.Rel (SRel F G (B1 + B2)) (a.plusF64 x) (b.plusF64 q) := by
  have hp := SRel.plus hf h (c := .k x) (d := .k q) ⟨hx, hq⟩
  match a, b, h with
  | .k _, .k _, h => exact hp
  | .var _, .var _, h => exact Go.Rel.bind hp (fun _ _ h => h.asSimplified hf)
  | .mono _, .mono _, h => exact Go.Rel.bind hp (fun _ _ h => h.asSimplified hf)
  | .poly _, .poly _, h => exact Go.Rel.bind hp (fun _ _ h => h.asSimplified hf)

theorem SRel.mulF64 (hf : Fit F (𝒢.g (i + j)) (B1 * B2)) {a : Scalar R} {b : Scalar K}
    (h : SRel F (𝒢.g i) B1 a b) {x : R} {q : K} (hx : CRel F (𝒢.g j) x q) (hq : |q| ≤ B2) :
    Go.Rel (SRel F (𝒢.g (i + j)) (B1 * B2)) (a.mulF64 x) (b.mulF64 q) := by
  have hp := SRel.mul hf h (c := .k x) (d := .k q) ⟨hx, hq⟩
  match a, b, h with
  | .k _, .k _, h => exact hp
  | .var _, .var _, h => exact Go.Rel.bind hp (fun _ _ h => h.asSimplified hf)
  | .mono _, .mono _, h => exact hp
  | .poly _, .poly _, h => exact Go.Rel.bind hp (fun _ _ h => h.asSimplified hf)

/-- Grade 0 contains `-1`. -/
theorem crel_negOne : CRel F (𝒢.g 0) negOne (negOne : K) :=
  ⟨F.neg F.one, (𝒢.g 0).neg_mem (𝒢.one 0)⟩

theorem SRel.minus (hf : Fit F (𝒢.g i) (B1 + B2)) {a c : Scalar R} {b d : Scalar K}
    (h : SRel F (𝒢.g i) B1 a b) (h' : SRel F (𝒢.g i) B2 c d) :
    Go.Rel (SRel F (𝒢.g i) (B1 + B2)) (a.minus c) (b.minus d) := by
  unfold Scalar.minus
  refine Go.Rel.bind h.check (fun _ _ _ => Go.Rel.bind h'.check (fun _ _ _ => ?_))
  have p1 := h.nonneg
  have hn : |(negOne : K)| ≤ 1 := by simp [negOne]
  have e : Fit F (𝒢.g (i + 0)) (B2 * 1) := by
    rw [Nat.add_zero, mul_one]; exact hf.mono (by linarith)
  refine Go.Rel.bind (SRel.mulF64 e h' crel_negOne hn) (fun x y hxy => ?_)
  rw [Nat.add_zero, mul_one] at hxy
  exact SRel.plus hf h hxy

theorem powLoop_rel (hB : 1 ≤ B) {a : Scalar R} {b : Scalar K}
    (h : SRel F (𝒢.g i) B a b) : ∀ k j (C : K) x y, 0 ≤ C →
      Fit F (𝒢.g (j + k * i)) (C * B ^ k) → SRel F (𝒢.g j) C x y →
      Go.Rel (SRel F (𝒢.g (j + k * i)) (C * B ^ k)) (powLoop a k x) (powLoop b k y) := by
  intro k
  induction k with
  | zero =>
    intro j C x y _ _ hxy
    have : Go.Rel (SRel F (𝒢.g j) C) (powLoop a 0 x) (powLoop b 0 y) := Go.rel_pure hxy
    simpa using this
  | succ k ih =>
    intro j C x y hC hf hxy
    have e1 : j + (k + 1) * i = (j + i) + k * i := by ring
    have e2 : C * B ^ (k + 1) = C * B * B ^ k := by ring
    rw [e1, e2] at hf ⊢
    have hCB : 0 ≤ C * B := mul_nonneg hC (zero_le_one.trans hB)
    unfold powLoop
    refine Go.Rel.bind (SRel.mul (B1 := C) (B2 := B) ⟨𝒢.one _, fun q hq hb => hf.able q ?_ ?_⟩ hxy h)
      (fun x y hxy => ih _ _ _ _ hCB hf hxy)
    · exact 𝒢.le (Nat.le_add_right _ _) hq
    · exact hb.trans (le_mul_of_one hCB (one_le_pow₀ hB))

theorem SRel.power {n : Int} (hB : 1 ≤ B) (hf : Fit F (𝒢.g (n.toNat * i)) (B ^ n.toNat))
    {a : Scalar R} {b : Scalar K} (h : SRel F (𝒢.g i) B a b) :
    Go.Rel (SRel F (𝒢.g (n.toNat * i)) (B ^ n.toNat)) (a.power n) (b.power n) := by
  unfold Scalar.power
  refine Go.Rel.bind h.check (fun _ _ _ => ?_)
  refine Go.rel_ite Iff.rfl (fun _ => Go.rel_throw _) (fun _ => ?_)
  have := powLoop_rel hB h n.toNat 0 1 (.k GoNum.one) (.k GoNum.one) zero_le_one
    (by simpa using hf) ⟨⟨F.one, 𝒢.one 0⟩, by simp⟩
  simpa using this

/-! ## Constant, Degree, LinearCoeff -/

theorem SRel.constant {a : Scalar R} {b : Scalar K} (h : SRel F G B a b) :
    Go.Rel (fun x q => CRel F G x q ∧ |q| ≤ B) a.constant b.constant := by
  match a, b, h with
  | .k _, .k _, h => exact Go.rel_pure h
  | .var _, .var _, h =>
    exact Go.rel_pure ⟨crel_zero, by rw [gn_zero, abs_zero]; exact zero_le_one.trans h.2⟩
  | .mono m, .mono n, h =>
    have he := forall₂_nil_iff h.1.2.2
    refine Go.rel_pure ?_
    unfold Mono.constant
    by_cases hm : m.vars = []
    · rw [hm, he.1 hm]; exact ⟨h.1.1, h.2⟩
    · rw [if_neg (by rwa [List.isEmpty_iff]),
        if_neg (by rw [List.isEmpty_iff]; exact fun h => hm (he.2 h))]
      exact ⟨crel_zero, by rw [gn_zero, abs_zero]; exact (abs_nonneg _).trans h.2⟩
  | .poly _, .poly _, h => exact lconstant_rel h

theorem SRel.degree {a : Scalar R} {b : Scalar K} (h : SRel F G B a b) :
    Go.Rel (· = ·) a.degree b.degree := by
  match a, b, h with
  | .k _, .k _, h => exact rfl
  | .var _, .var _, h => exact rfl
  | .mono m, .mono n, h => exact h.1.degree
  | .poly _, .poly _, h => exact ldegree_rel h.1

/-! ## DerivativeWrt -/

theorem forall₂_eraseIdx {α β : Type} {A : α → β → Prop} {l : List α} {l' : List β}
    (h : List.Forall₂ A l l') : ∀ i, List.Forall₂ A (l.eraseIdx i) (l'.eraseIdx i) := by
  induction h with
  | nil => intro i; simp
  | cons hx hl ih =>
    intro i
    cases i with
    | zero => simpa using hl
    | succ i => simpa using ⟨hx, ih i⟩

theorem MRel.derivative {E : K} (hE1 : 1 ≤ E) (hfE : Fit F (𝒢.g 0) E)
    {m : Mono R} {n : Mono K} (h : MRel F (𝒢.g i) m n) (hE : ∀ e ∈ n.exps, |(e : K)| ≤ E)
    (hf : Fit F (𝒢.g i) (|n.coeff| * E)) {v : Var R} {w : Var K} (hv : VRel F v w) :
    Go.Rel (SRel F (𝒢.g i) (|n.coeff| * E)) (m.derivative v) (n.derivative w) := by
  have hz : |(0 : K)| ≤ |n.coeff| * E := by
    rw [abs_zero]; exact mul_nonneg (abs_nonneg _) (zero_le_one.trans hE1)
  have hc : |n.coeff| ≤ |n.coeff| * E := le_mul_of_one (abs_nonneg _) hE1
  unfold Mono.derivative
  refine Go.Rel.bind h.check (fun _ _ _ => Go.Rel.bind hv.check (fun _ _ _ => ?_))
  rw [findVar_rel hv.1 h.2.2, h.2.1, h.length]
  cases findVar w n.vars with
  | none => exact Go.rel_pure (a := Scalar.k _) (b := Scalar.k _) ⟨crel_zero, hz⟩
  | some k =>
    simp only
    cases he : n.exps[k]? with
    | none => exact Go.rel_throw _
    | some e =>
      simp only
      refine Go.rel_ite Iff.rfl (fun _ => ?_) (fun _ => Go.rel_ite Iff.rfl (fun _ => ?_) (fun _ => ?_))
      · exact Go.rel_pure (a := Scalar.k _) (b := Scalar.k _) ⟨h.1, hc⟩
      · exact Go.rel_pure (a := Scalar.mono _) (b := Scalar.mono ⟨_, _, _⟩)
          ⟨⟨h.1, rfl, forall₂_eraseIdx h.2.2 k⟩, hc⟩
      · have he' := hE e (List.mem_of_getElem? he)
        have hr : CRel F (𝒢.g 0) (GoNum.ofInt e) (e : K) :=
          ⟨F.ofInt e (hfE.able _ (𝒢.int e 0) he'), 𝒢.int e 0⟩
        have hmul := CRel.mul (i := i) (j := 0) (B1 := |n.coeff|) (B2 := E)
          (by rw [Nat.add_zero]; exact hf) h.1 hr le_rfl he'
        exact Go.rel_pure (a := Scalar.mono _) (b := Scalar.mono ⟨_, _, _⟩)
          ⟨⟨hmul, rfl, h.2.2⟩, abs_mul_le_mul le_rfl he'⟩

theorem lderivative_rel {E : K} (hE1 : 1 ≤ E) (hfE : Fit F (𝒢.g 0) E)
    (hf : Fit F (𝒢.g i) (B * E)) {l : List (Mono R)} {l' : List (Mono K)}
    (h : LRel F (𝒢.g i) B l l') (hE : ∀ n ∈ l', ∀ e ∈ n.exps, |(e : K)| ≤ E)
    {v : Var R} {w : Var K} (hv : VRel F v w) :
    Go.Rel (SRel F (𝒢.g i) (B * E)) (Poly.derivative ⟨l⟩ v) (Poly.derivative ⟨l'⟩ w) := by
  have hE0 : 0 ≤ E := zero_le_one.trans hE1
  unfold Poly.derivative
  refine Go.Rel.bind (lcheck_rel h.1) (fun _ _ _ => Go.Rel.bind hv.check (fun _ _ _ => ?_))
  refine Go.Rel.bind (A := LRel F (𝒢.g i) (B * E)) ?_ (fun a b hab => ?_)
  · refine (Go.rel_foldlM (A := MRel F (𝒢.g i))
      (fun _ s' a b => lnorm s' ≤ B ∧ (∀ n ∈ s', ∀ e ∈ n.exps, |(e : K)| ≤ E) ∧
        LRel F (𝒢.g i) ((B - lnorm s') * E) a b) ?_ h.1
      [] [] ⟨h.2, hE, List.Forall₂.nil, ?_⟩).mono (fun a b hab => ?_)
    · rintro m n t t' a b hmn ⟨hB, hes, hab⟩
      rw [lnorm_cons] at hB hab
      have p2 := lnorm_nonneg t'
      have p3 := abs_nonneg n.coeff
      have hle : |n.coeff| * E ≤ B * E := mul_le_mul_of_nonneg_right (by linarith) hE0
      have e : (B - lnorm t') * E = (B - (|n.coeff| + lnorm t')) * E + |n.coeff| * E := by ring
      have q0 : 0 ≤ |n.coeff| * E := mul_nonneg p3 hE0
      have hes' : ∀ n ∈ t', ∀ e ∈ n.exps, |(e : K)| ≤ E :=
        fun n hn => hes n (List.mem_cons_of_mem _ hn)
      have skip : ∀ a b, LRel F (𝒢.g i) ((B - (|n.coeff| + lnorm t')) * E) a b →
          LRel F (𝒢.g i) ((B - lnorm t') * E) a b := fun a b h => h.mono (by rw [e]; linarith)
      unfold derivStep
      refine Go.rel_ite (by rw [hmn.isConstant]) (fun _ => ?_) (fun _ => ?_)
      · exact Go.rel_pure ⟨by linarith, hes', skip _ _ hab⟩
      · refine Go.Rel.bind (hmn.derivative hE1 hfE (hes n List.mem_cons_self) (hf.mono hle) hv)
          (fun c d hcd => ?_)
        match c, d, hcd with
        | .mono _, .mono _, hcd =>
          exact Go.rel_pure ⟨by linarith, hes', by rw [e]; exact hab.append (hcd.1.single hcd.2)⟩
        | .k x, .k q, hcd =>
          refine Go.rel_ite (by rw [hcd.1.feq' crel_zero]; exact Iff.rfl) (fun _ => ?_) (fun _ => ?_)
          · exact Go.rel_pure ⟨by linarith, hes', skip _ _ hab⟩
          · exact Go.rel_pure ⟨by linarith, hes', by
              rw [e]; exact hab.append ((mrel_const hcd.1).single hcd.2)⟩
        | .var _, .var _, _ => exact Go.rel_throw _
        | .poly _, .poly _, _ => exact Go.rel_throw _
    · rw [lnorm_nil]
      exact mul_nonneg (by linarith [h.2]) hE0
    · have := hab.2.2
      rwa [lnorm_nil, sub_zero] at this
  · have he := forall₂_nil_iff hab.1
    refine Go.rel_ite (by rw [List.isEmpty_iff, List.isEmpty_iff]; exact he) (fun _ => ?_) (fun _ => ?_)
    · exact Go.rel_pure (a := Scalar.k _) (b := Scalar.k _)
        ⟨crel_zero, by rw [gn_zero, abs_zero]; exact (lnorm_nonneg _).trans hab.2⟩
    · exact Go.rel_pure (a := Scalar.poly ⟨a⟩) (b := Scalar.poly ⟨b⟩) hab

/-- The terms of a scalar expression. -/
def Scalar.termList : Scalar K → List (Mono K)
  | .k _ => []
  | .var _ => []
  | .mono m => [m]
  | .poly p => p.monos

/-- Differentiation on floats does what differentiation on exact numbers does. -/
theorem SRel.derivative {E : K} (hE1 : 1 ≤ E) (hfE : Fit F (𝒢.g 0) E)
    (hf : Fit F (𝒢.g i) (B * E)) {a : Scalar R} {b : Scalar K}
    (h : SRel F (𝒢.g i) B a b) (hE : ∀ n ∈ b.termList, ∀ e ∈ n.exps, |(e : K)| ≤ E)
    {v : Var R} {w : Var K} (hv : VRel F v w) :
    Go.Rel (SRel F (𝒢.g i) (B * E)) (a.derivative v) (b.derivative w) := by
  have hB : B ≤ B * E := le_mul_of_one h.nonneg hE1
  have hz : SRel F (𝒢.g i) (B * E) (.k GoNum.zero) (.k GoNum.zero) :=
    ⟨crel_zero, by rw [gn_zero, abs_zero]; exact h.nonneg.trans hB⟩
  match a, b, h with
  | .k _, .k _, h => exact Go.rel_pure hz
  | .var _, .var _, h =>
    refine Go.Rel.bind h.1.check (fun _ _ _ => Go.Rel.bind hv.check (fun _ _ _ => ?_))
    refine Go.rel_ite (by rw [h.1.1, hv.1]) (fun _ => ?_) (fun _ => Go.rel_pure hz)
    exact Go.rel_pure (a := Scalar.k _) (b := Scalar.k _)
      ⟨⟨F.one, 𝒢.one i⟩, by rw [gn_one, abs_one]; exact h.2.trans hB⟩
  | .mono m, .mono n, h =>
    have hle : |n.coeff| * E ≤ B * E :=
      mul_le_mul_of_nonneg_right h.2 (zero_le_one.trans hE1)
    exact (h.1.derivative hE1 hfE (hE n List.mem_cons_self) (hf.mono hle) hv).mono
      (fun _ _ h => h.mono hle)
  | .poly _, .poly _, h => exact lderivative_rel hE1 hfE hf h hE hv

/-! ## Substitute -/

variable {S C : K} {D : ℕ}

theorem Fit.sub (hf : Fit F (𝒢.g i) B) {i' : ℕ} {B' : K} (hi : i' ≤ i) (hB : B' ≤ B) :
    Fit F (𝒢.g i') B' := ⟨𝒢.one _, fun q hq hb => hf.able q (𝒢.le hi hq) (hb.trans hB)⟩

theorem VRel.substitute (hS : 1 ≤ S) {v x : Var R} {w y : Var K} (hv : VRel F v w) (hx : VRel F x y)
    {s : Scalar R} {t : Scalar K} (h : SRel F G S s t) :
    Go.Rel (SRel F G S) (v.substitute x s) (w.substitute y t) := by
  unfold Var.substitute
  refine Go.Rel.bind hv.check (fun _ _ _ => Go.Rel.bind hx.check (fun _ _ _ =>
    Go.Rel.bind h.check (fun _ _ _ => ?_)))
  refine Go.rel_ite (by rw [hv.1, hx.1, hv.env, hx.env]) (fun _ => Go.rel_pure h) (fun _ => ?_)
  exact Go.rel_pure (a := Scalar.var v) (b := Scalar.var w) ⟨hv, hS⟩

/-- The number of factors a term multiplies out to. -/
def Mono.size (n : Mono K) : ℕ := (n.exps.map Int.toNat).sum

theorem zip_size (ws : List (Var K)) (es : List Int) :
    ((ws.zip es).map (fun ve => ve.2.toNat)).sum ≤ (es.map Int.toNat).sum := by
  induction ws generalizing es with
  | nil => simp
  | cons w ws ih =>
    cases es with
    | nil => simp
    | cons e es => simpa using ih es

/-- The loop that multiplies the powers of the replaced factors; `f` and `g` replace one factor. -/
theorem prodLoop_rel (hS : 1 ≤ S) (hfS : Fit F (𝒢.g (D * j)) (S ^ D)) (hC : 0 ≤ C)
    (hf : Fit F (𝒢.g (i + D * j)) (C * S ^ D)) {f : Var R → Go (Scalar R)} {g : Var K → Go (Scalar K)}
    {vs : List (Var R)} {ws : List (Var K)} (hv : List.Forall₂ (VRel F) vs ws)
    (hfg : List.Forall₂ (fun v w => Go.Rel (SRel F (𝒢.g j) S) (f v) (g w)) vs ws) (es : List Int)
    (hD : (es.map Int.toNat).sum ≤ D) {x : R} {q : K} (hx : CRel F (𝒢.g i) x q) (hq : |q| ≤ C) :
    Go.Rel (SRel F (𝒢.g (i + D * j)) (C * S ^ D))
      ((vs.zip es).foldlM (fun prod ve => do
        let sub ← f ve.1
        let pw ← sub.power ve.2
        prod.mul pw) (Scalar.k x))
      ((ws.zip es).foldlM (fun prod ve => do
        let sub ← g ve.1
        let pw ← sub.power ve.2
        prod.mul pw) (Scalar.k q)) := by
  have hS0 : (0 : K) ≤ S := zero_le_one.trans hS
  have hz : List.Forall₂ (fun (a : Var R × Int) (b : Var K × Int) =>
      Go.Rel (SRel F (𝒢.g j) S) (f a.1) (g b.1) ∧ a.2 = b.2) (vs.zip es) (ws.zip es) := by
    clear hD
    induction hfg generalizing es with
    | nil => simp
    | cons h _ ih =>
      cases es with
      | nil => simp
      | cons e es =>
        cases hv with
        | cons _ hv => exact List.Forall₂.cons ⟨h, rfl⟩ (ih hv es)
  refine (Go.rel_foldlM (A := fun (a : Var R × Int) (b : Var K × Int) =>
      Go.Rel (SRel F (𝒢.g j) S) (f a.1) (g b.1) ∧ a.2 = b.2)
    (fun _ r a b => ∃ k, k + (r.map (fun ve => ve.2.toNat)).sum ≤ D ∧
      SRel F (𝒢.g (i + k * j)) (C * S ^ k) a b) ?_ hz (.k x) (.k q)
      ⟨0, ?_, ?_⟩).mono (fun a b hab => ?_)
  · rintro ⟨v, e⟩ ⟨w, _⟩ r r' a b ⟨hvw, rfl⟩ ⟨k, hk, hab⟩
    simp only [List.map_cons, List.sum_cons] at hk
    refine Go.Rel.bind hvw (fun s t hst => ?_)
    have hke : e.toNat ≤ D := by omega
    refine Go.Rel.bind (SRel.power hS
      (hfS.sub (Nat.mul_le_mul_right j hke) (pow_le_pow_right₀ hS hke)) hst) (fun s t hst => ?_)
    have e1 : i + k * j + e.toNat * j = i + (k + e.toNat) * j := by ring
    have e2 : C * S ^ k * S ^ e.toNat = C * S ^ (k + e.toNat) := by rw [pow_add]; ring
    have hkk : k + e.toNat ≤ D := by omega
    refine (SRel.mul (hf.sub ?_ ?_) hab hst).mono (fun _ _ h => ⟨k + e.toNat, by omega, ?_⟩)
    · rw [e1]; exact Nat.add_le_add_left (Nat.mul_le_mul_right j hkk) i
    · rw [e2]; exact mul_le_mul_of_nonneg_left (pow_le_pow_right₀ hS hkk) hC
    · rwa [e1, e2] at h
  · rw [Nat.zero_add]; exact (zip_size ws es).trans hD
  · have h0 : SRel F (𝒢.g i) C (.k x) (.k q) := ⟨hx, hq⟩
    rw [Nat.zero_mul, Nat.add_zero, pow_zero, mul_one]
    exact h0
  · obtain ⟨k, hk, hab⟩ := hab
    have hkk : k ≤ D := by omega
    exact (hab.grade (𝒢.le (Nat.add_le_add_left (Nat.mul_le_mul_right j hkk) i))).mono
      (mul_le_mul_of_nonneg_left (pow_le_pow_right₀ hS hkk) hC)

theorem MRel.substitute (hS : 1 ≤ S) (hfS : Fit F (𝒢.g (D * j)) (S ^ D))
    {m : Mono R} {n : Mono K} (hm : MRel F (𝒢.g i) m n) (hD : n.size ≤ D) (hC : |n.coeff| ≤ C)
    (hf : Fit F (𝒢.g (i + D * j)) (C * S ^ D)) {x : Var R} {y : Var K} (hx : VRel F x y)
    {s : Scalar R} {t : Scalar K} (h : SRel F (𝒢.g j) S s t) :
    Go.Rel (SRel F (𝒢.g (i + D * j)) (C * S ^ D)) (m.substitute x s) (n.substitute y t) := by
  have hC0 : 0 ≤ C := (abs_nonneg _).trans hC
  unfold Mono.substitute
  refine Go.Rel.bind hm.check (fun _ _ _ => Go.Rel.bind hx.check (fun _ _ _ =>
    Go.Rel.bind h.check (fun _ _ _ => ?_)))
  rw [findVar_rel hx.1 hm.2.2]
  cases findVar y n.vars with
  | none =>
    exact Go.rel_pure (a := Scalar.mono m) (b := Scalar.mono n)
      ⟨hm.grade (𝒢.le (Nat.le_add_right _ _)), hC.trans (le_mul_of_one hC0 (one_le_pow₀ hS))⟩
  | some _ =>
    simp only
    rw [hm.2.1]
    exact prodLoop_rel hS hfS hC0 hf (f := fun v => v.substitute x s) (g := fun w => w.substitute y t)
      hm.2.2 (hm.2.2.imp (fun _ _ hv => hv.substitute hS hx h)) n.exps hD hm.1 hC

/-- The loop that adds up the terms. -/
theorem sumLoop_rel (hS : 1 ≤ S) (hf : Fit F (𝒢.g (i + D * j)) (B * S ^ D))
    {f : Mono R → Go (Scalar R)} {g : Mono K → Go (Scalar K)}
    {l : List (Mono R)} {l' : List (Mono K)} (h : LRel F (𝒢.g i) B l l')
    (hfg : List.Forall₂ (fun m n => Fit F (𝒢.g (i + D * j)) (|n.coeff| * S ^ D) →
      Go.Rel (SRel F (𝒢.g (i + D * j)) (|n.coeff| * S ^ D)) (f m) (g n)) l l') :
    Go.Rel (SRel F (𝒢.g (i + D * j)) (B * S ^ D))
      (l.foldlM (fun acc m => do
        let t ← f m
        acc.plus t) (Scalar.k GoNum.zero))
      (l'.foldlM (fun acc m => do
        let t ← g m
        acc.plus t) (Scalar.k GoNum.zero)) := by
  have hT : (0 : K) ≤ S ^ D := pow_nonneg (zero_le_one.trans hS) D
  refine (Go.rel_foldlM (A := fun m n => Fit F (𝒢.g (i + D * j)) (|n.coeff| * S ^ D) →
      Go.Rel (SRel F (𝒢.g (i + D * j)) (|n.coeff| * S ^ D)) (f m) (g n))
    (fun _ s' a b => lnorm s' ≤ B ∧ SRel F (𝒢.g (i + D * j)) ((B - lnorm s') * S ^ D) a b) ?_ hfg
    (.k GoNum.zero) (.k GoNum.zero) ⟨h.2, crel_zero, ?_⟩).mono (fun a b hab => ?_)
  · rintro m n t t' a b hmn ⟨hB, hab⟩
    rw [lnorm_cons] at hB hab
    have p2 := lnorm_nonneg t'
    have p3 := abs_nonneg n.coeff
    have hle : |n.coeff| * S ^ D ≤ B * S ^ D := mul_le_mul_of_nonneg_right (by linarith) hT
    have e : (B - (|n.coeff| + lnorm t')) * S ^ D + |n.coeff| * S ^ D = (B - lnorm t') * S ^ D := by
      ring
    have hle2 : (B - lnorm t') * S ^ D ≤ B * S ^ D := mul_le_mul_of_nonneg_right (by linarith) hT
    refine Go.Rel.bind (hmn (hf.mono hle)) (fun c d hcd => ?_)
    refine (SRel.plus (hf.mono (by rw [e]; exact hle2)) hab hcd).mono (fun _ _ h => ⟨by linarith, ?_⟩)
    rwa [e] at h
  · rw [gn_zero, abs_zero]
    exact mul_nonneg (by linarith [h.2]) hT
  · have := hab.2
    rwa [lnorm_nil, sub_zero] at this

/-- Substitution on floats does what substitution on exact numbers does. -/
theorem SRel.substitute (hS : 1 ≤ S) (hfS : Fit F (𝒢.g (D * j)) (S ^ D)) {a : Scalar R}
    {b : Scalar K} (ha : SRel F (𝒢.g i) B a b) (hD : ∀ n ∈ b.termList, n.size ≤ D)
    (hD1 : 1 ≤ D) (hf : Fit F (𝒢.g (i + D * j)) (B * S ^ D)) {x : Var R} {y : Var K} (hx : VRel F x y)
    {s : Scalar R} {t : Scalar K} (h : SRel F (𝒢.g j) S s t) :
    Go.Rel (SRel F (𝒢.g (i + D * j)) (B * S ^ D)) (a.substitute x s) (b.substitute y t) := by
  have hB : B ≤ B * S ^ D := le_mul_of_one ha.nonneg (one_le_pow₀ hS)
  have hg : 𝒢.g i ≤ 𝒢.g (i + D * j) := 𝒢.le (Nat.le_add_right _ _)
  match a, b, ha with
  | .k _, .k _, ha => exact Go.rel_pure ((SRel.grade (a := .k _) (b := .k _) ha hg).mono hB)
  | .var _, .var _, ha =>
    refine (ha.1.substitute hS hx h).mono (fun _ _ h => (h.grade (𝒢.le ?_)).mono ?_)
    · exact (Nat.le_mul_of_pos_left j hD1).trans (Nat.le_add_left _ _)
    · calc S = S ^ 1 := (pow_one S).symm
        _ ≤ S ^ D := pow_le_pow_right₀ hS hD1
        _ ≤ B * S ^ D := by
          rw [mul_comm]; exact le_mul_of_one (pow_nonneg (zero_le_one.trans hS) D) ha.2
  | .mono _, .mono n, ha => exact ha.1.substitute hS hfS (hD n List.mem_cons_self) ha.2 hf hx h
  | .poly p, .poly q, ha =>
    show Go.Rel _ (Poly.substitute _ _ _) (Poly.substitute _ _ _)
    unfold Poly.substitute
    refine Go.Rel.bind (lcheck_rel ha.1) (fun _ _ _ => Go.Rel.bind hx.check (fun _ _ _ =>
      Go.Rel.bind h.check (fun _ _ _ => ?_)))
    refine Go.Rel.bind (sumLoop_rel (f := fun m => m.substitute x s) (g := fun n => n.substitute y t)
      hS hf ha ?_) (fun _ _ h => h.asSimplified hf)
    obtain ⟨l⟩ := p
    obtain ⟨l'⟩ := q
    have hD' : ∀ n ∈ l', n.size ≤ D := hD
    revert hD'
    have h1 : List.Forall₂ (MRel F (𝒢.g i)) l l' := ha.1
    clear ha hD
    induction h1 with
    | nil => intro _; exact List.Forall₂.nil
    | cons hm _ ih =>
      intro hD
      exact List.Forall₂.cons (fun hf => hm.substitute hS hfS (hD _ List.mem_cons_self) le_rfl hf hx h)
        (ih (fun n hn => hD n (List.mem_cons_of_mem _ hn)))

/-! ## SubstituteAccordingTo -/

/-- The same substitution map. -/
def SubRel (F : FloatModel R K) (G : AddSubgroup K) (S : K) (sm : SubMap R) (tm : SubMap K) : Prop :=
  List.Forall₂ (fun (a : Var R × Scalar R) (b : Var K × Scalar K) =>
    VRel F a.1 b.1 ∧ SRel F G S a.2 b.2) sm tm

theorem SubRel.check {sm : SubMap R} {tm : SubMap K} (h : SubRel F G S sm tm) :
    Go.Rel (fun _ _ => True) (checkSubMap sm) (checkSubMap tm) :=
  Go.rel_forM h (fun _ _ h => Go.Rel.bind h.1.check (fun _ _ _ => h.2.check))

theorem VRel.substMap (hS : 1 ≤ S) {v : Var R} {w : Var K} (hv : VRel F v w) {sm : SubMap R}
    {tm : SubMap K} (h : SubRel F G S sm tm) :
    Go.Rel (SRel F G S) (v.substMap sm) (w.substMap tm) := by
  unfold Var.substMap
  refine Go.Rel.bind hv.check (fun _ _ _ => Go.Rel.bind h.check (fun _ _ _ => ?_))
  unfold SubMap.lookup
  induction h with
  | nil => exact Go.rel_pure (a := Scalar.var v) (b := Scalar.var w) ⟨hv, hS⟩
  | @cons a b _ _ hx _ ih =>
    rw [List.find?_cons, List.find?_cons, hv.keyEq hx.1]
    cases w.keyEq b.1 with
    | true => exact Go.rel_pure hx.2
    | false => exact ih

theorem MRel.substMap (hS : 1 ≤ S) (hfS : Fit F (𝒢.g (D * j)) (S ^ D))
    {m : Mono R} {n : Mono K} (hm : MRel F (𝒢.g i) m n) (hD : n.size ≤ D) (hC : |n.coeff| ≤ C)
    (hf : Fit F (𝒢.g (i + D * j)) (C * S ^ D)) {sm : SubMap R} {tm : SubMap K}
    (h : SubRel F (𝒢.g j) S sm tm) :
    Go.Rel (SRel F (𝒢.g (i + D * j)) (C * S ^ D)) (m.substMap sm) (n.substMap tm) := by
  have hC0 : 0 ≤ C := (abs_nonneg _).trans hC
  unfold Mono.substMap
  refine Go.Rel.bind hm.check (fun _ _ _ => Go.Rel.bind h.check (fun _ _ _ => ?_))
  rw [hm.2.1]
  exact prodLoop_rel hS hfS hC0 hf (f := fun v => v.substMap sm) (g := fun w => w.substMap tm)
    hm.2.2 (hm.2.2.imp (fun _ _ hv => hv.substMap hS h)) n.exps hD hm.1 hC

/-- Substitution by a map on floats does what it does on exact numbers. -/
theorem SRel.substMap (hS : 1 ≤ S) (hfS : Fit F (𝒢.g (D * j)) (S ^ D)) {a : Scalar R}
    {b : Scalar K} (ha : SRel F (𝒢.g i) B a b) (hD : ∀ n ∈ b.termList, n.size ≤ D)
    (hD1 : 1 ≤ D) (hf : Fit F (𝒢.g (i + D * j)) (B * S ^ D)) {sm : SubMap R} {tm : SubMap K}
    (h : SubRel F (𝒢.g j) S sm tm) :
    Go.Rel (SRel F (𝒢.g (i + D * j)) (B * S ^ D)) (a.substMap sm) (b.substMap tm) := by
  have hB : B ≤ B * S ^ D := le_mul_of_one ha.nonneg (one_le_pow₀ hS)
  have hg : 𝒢.g i ≤ 𝒢.g (i + D * j) := 𝒢.le (Nat.le_add_right _ _)
  match a, b, ha with
  | .k _, .k _, ha => exact Go.rel_pure ((SRel.grade (a := .k _) (b := .k _) ha hg).mono hB)
  | .var _, .var _, ha =>
    refine (ha.1.substMap hS h).mono (fun _ _ h => (h.grade (𝒢.le ?_)).mono ?_)
    · exact (Nat.le_mul_of_pos_left j hD1).trans (Nat.le_add_left _ _)
    · calc S = S ^ 1 := (pow_one S).symm
        _ ≤ S ^ D := pow_le_pow_right₀ hS hD1
        _ ≤ B * S ^ D := by
          rw [mul_comm]; exact le_mul_of_one (pow_nonneg (zero_le_one.trans hS) D) ha.2
  | .mono _, .mono n, ha => exact ha.1.substMap hS hfS (hD n List.mem_cons_self) ha.2 hf h
  | .poly p, .poly q, ha =>
    show Go.Rel _ (Poly.substMap _ _) (Poly.substMap _ _)
    unfold Poly.substMap
    refine Go.Rel.bind (lcheck_rel ha.1) (fun _ _ _ => Go.Rel.bind h.check (fun _ _ _ => ?_))
    refine sumLoop_rel (f := fun m => m.substMap sm) (g := fun n => n.substMap tm) hS hf ha ?_
    obtain ⟨l⟩ := p
    obtain ⟨l'⟩ := q
    have hD' : ∀ n ∈ l', n.size ≤ D := hD
    revert hD'
    have h1 : List.Forall₂ (MRel F (𝒢.g i)) l l' := ha.1
    clear ha hD
    induction h1 with
    | nil => intro _; exact List.Forall₂.nil
    | cons hm _ ih =>
      intro hD
      exact List.Forall₂.cons (fun hf => hm.substMap hS hfS (hD _ List.mem_cons_self) le_rfl hf h)
        (ih (fun n hn => hD n (List.mem_cons_of_mem _ hn)))

/-! ## LinearCoeff -/

theorem wrtOrDefault_rel {d : List (Var R)} {d' : List (Var K)} (hd : List.Forall₂ (VRel F) d d')
    {wrt : List (List (Var R))} {wrt' : List (List (Var K))}
    (h : List.Forall₂ (List.Forall₂ (VRel F)) wrt wrt') :
    Go.Rel (List.Forall₂ (VRel F)) (wrtOrDefault d wrt) (wrtOrDefault d' wrt') := by
  cases h with
  | nil => exact Go.rel_pure hd
  | cons hx h =>
    cases h with
    | nil => exact Go.rel_pure hx
    | cons _ _ => exact Go.rel_throw _

theorem isEmpty_rel {α β : Type} {A : α → β → Prop} {l : List α} {l' : List β}
    (h : List.Forall₂ A l l') : (l.isEmpty = true ↔ l'.isEmpty = true) := by
  cases h <;> simp

theorem forall₂_replicate {α β : Type} {A : α → β → Prop} {a : α} {b : β} (h : A a b) (n : ℕ) :
    List.Forall₂ A (List.replicate n a) (List.replicate n b) := by
  induction n with
  | zero => exact List.Forall₂.nil
  | succ n ih => exact List.Forall₂.cons h ih

theorem forall₂_set {α β : Type} {A : α → β → Prop} {l : List α} {l' : List β}
    (h : List.Forall₂ A l l') {a : α} {b : β} (hab : A a b) (n : ℕ) :
    List.Forall₂ A (l.set n a) (l'.set n b) := by
  induction h generalizing n with
  | nil => simp
  | cons hx hl ih =>
    cases n with
    | zero => exact List.Forall₂.cons hab hl
    | succ n => exact List.Forall₂.cons hx (ih n)

theorem forall₂_getElem? {α β : Type} {A : α → β → Prop} {l : List α} {l' : List β}
    (h : List.Forall₂ A l l') (n : ℕ) :
    (l[n]? = none ∧ l'[n]? = none) ∨ ∃ a b, l[n]? = some a ∧ l'[n]? = some b ∧ A a b := by
  induction h generalizing n with
  | nil => exact Or.inl (by simp)
  | cons hx _ ih =>
    cases n with
    | zero => exact Or.inr ⟨_, _, rfl, rfl, hx⟩
    | succ n => simpa using ih n

theorem abs_le_lnorm {l : List (Mono K)} {m : Mono K} (h : m ∈ l) : |m.coeff| ≤ lnorm l := by
  induction l with
  | nil => cases h
  | cons n l ih =>
    rw [lnorm_cons]
    rcases List.mem_cons.1 h with rfl | h
    · linarith [lnorm_nonneg l]
    · linarith [ih h, abs_nonneg n.coeff]

/-- `LinearCoeff` on floats does what it does on exact numbers. -/
theorem SRel.linearCoeff (hone : 1 ∈ G) {a : Scalar R} {b : Scalar K} (h : SRel F G B a b)
    {wrt : List (List (Var R))} {wrt' : List (List (Var K))}
    (hw : List.Forall₂ (List.Forall₂ (VRel F)) wrt wrt') :
    Go.Rel (List.Forall₂ (fun x y => SRel F G B (.k x) (.k y))) (a.linearCoeff wrt) (b.linearCoeff wrt') := by
  have hz : SRel F G B (.k GoNum.zero) (.k GoNum.zero) :=
    ⟨crel_zero, by rw [gn_zero, abs_zero]; exact h.nonneg⟩
  match a, b, h with
  | .k _, .k _, h =>
    show Go.Rel _ (kLinearCoeff wrt) (kLinearCoeff wrt')
    cases hw with
    | nil => exact Go.rel_throw _
    | cons hx _ =>
      refine Go.rel_ite (isEmpty_rel hx) (fun _ => Go.rel_throw _) (fun _ => ?_)
      rw [hx.length_eq]
      exact Go.rel_pure (forall₂_replicate (A := fun x y => SRel F G B (.k x) (.k y)) hz _)
  | .var v, .var w, h =>
    show Go.Rel _ (v.linearCoeff wrt) (w.linearCoeff wrt')
    unfold Var.linearCoeff
    refine Go.Rel.bind h.1.check (fun _ _ _ => Go.Rel.bind
      (wrtOrDefault_rel (List.Forall₂.cons h.1 List.Forall₂.nil) hw) (fun ws ws' hws => ?_))
    refine Go.rel_ite (isEmpty_rel hws) (fun _ => Go.rel_throw _) (fun hne => Go.rel_pure ?_)
    clear hw hne
    induction hws with
    | nil => exact List.Forall₂.nil
    | cons hx _ ih =>
      refine List.Forall₂.cons ?_ ih
      simp only
      rw [h.1.id, hx.id]
      split
      · exact ⟨⟨F.one, hone⟩, by rw [gn_one, abs_one]; exact h.2⟩
      · exact hz
  | .mono m, .mono n, h =>
    show Go.Rel _ (m.linearCoeff wrt) (n.linearCoeff wrt')
    unfold Mono.linearCoeff
    refine Go.Rel.bind h.1.check (fun _ _ _ => Go.Rel.bind
      (wrtOrDefault_rel h.1.2.2 hw) (fun ws ws' hws => ?_))
    refine Go.rel_ite (isEmpty_rel hws) (fun _ => Go.rel_throw _) (fun _ => ?_)
    refine Go.Rel.bind h.1.degree ?_
    rintro d _ rfl
    rw [hws.length_eq]
    refine Go.rel_ite Iff.rfl (fun _ => ?_) (fun _ => Go.rel_pure (forall₂_replicate (A := fun x y => SRel F G B (.k x) (.k y)) hz _))
    have hv := h.1.2.2
    revert hv
    generalize m.vars = vs
    generalize n.vars = ws
    intro hv
    cases hv with
    | nil => exact Go.rel_throw _
    | cons hx _ =>
      simp only
      rw [findVar_rel hx.1 hws]
      cases findVar _ ws' with
      | none => exact Go.rel_throw _
      | some k => exact Go.rel_pure (forall₂_set
        (forall₂_replicate (A := fun x y => SRel F G B (.k x) (.k y)) hz _) ⟨h.1.1, h.2⟩ k)
  | .poly p, .poly q, h =>
    obtain ⟨l⟩ := p
    obtain ⟨l'⟩ := q
    show Go.Rel _ (Poly.linearCoeff ⟨l⟩ wrt) (Poly.linearCoeff ⟨l'⟩ wrt')
    have h1 : List.Forall₂ (MRel F G) l l' := h.1
    unfold Poly.linearCoeff
    refine Go.Rel.bind (lcheck_rel h1) (fun _ _ _ => Go.Rel.bind
      (wrtOrDefault_rel (variables_rel h1) hw) (fun ws ws' hws => ?_))
    refine Go.rel_ite (isEmpty_rel hws) (fun _ => Go.rel_throw _) (fun _ => ?_)
    refine Go.rel_mapM hws (fun v w hv => Go.Rel.bind (variableIndex_rel hv h1) ?_)
    rintro k _ rfl
    cases k with
    | none => exact Go.rel_pure hz
    | some k =>
      simp only
      obtain ⟨e1, e2⟩ | ⟨a, b, e1, e2, hab⟩ := forall₂_getElem? h1 k
      · rw [e1, e2]; exact Go.rel_throw _
      · rw [e1, e2]
        exact Go.rel_pure ⟨hab.1, (abs_le_lnorm (List.mem_of_getElem? e2)).trans h.2⟩

end Verif
