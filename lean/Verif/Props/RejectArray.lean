import Verif.Model.Constraint
import Verif.Props.Reject
import Verif.Props.Closed
import Verif.WitnessArray

/-!
# C43 for vectors, matrices and constraints: malformed operands are rejected

The rejection theorems are for every number type.
-/

set_option linter.unusedSectionVars false

namespace Verif

variable {R : Type} [GoNum R]

/-- What `Check` accepts in a vector: the entries are well formed; a vector of monomials or polynomials
is not empty. -/
def Vec.Accepted (a : Vec R) : Prop :=
  (∀ x ∈ a.entries, x.Accepted) ∧ ((∃ l, a = .m l) ∨ (∃ l, a = .p l) → a.entries ≠ [])

/-- What `Check` accepts in a matrix: the entries are well formed; except for constants there is a row
and all rows are equally long. -/
def Mat.Accepted (a : Mat R) : Prop :=
  (∀ row ∈ a.entries, ∀ x ∈ row, x.Accepted) ∧
    ((∀ rows, a ≠ .k rows) → a.entries ≠ [] ∧ ∃ c, ∀ row ∈ a.entries, row.length = c)

/-- What `Check` accepts. -/
def Expr.Accepted : Expr R → Prop
  | .s a => a.Accepted
  | .v a => a.Accepted
  | .m a => a.Accepted

section
variable {α : Type}

theorem forM_check {l : List α} {chk : α → Go Unit}
    (hc : ∀ x ∈ l, chk x = .ok () ∨ chk x = .error .check) :
    (l.forM chk = .ok () ↔ ∀ x ∈ l, chk x = .ok ()) ∧
    (l.forM chk = .ok () ∨ l.forM chk = .error .check) := by
  induction l with
  | nil => exact ⟨by simp [Go.pure_eq], Or.inl rfl⟩
  | cons a l ih =>
    have ih := ih fun x hx => hc x (by simp [hx])
    rw [show (a :: l).forM chk = (chk a >>= fun _ => l.forM chk) from rfl]
    rcases hc a (by simp) with h | h
    · rw [h, Go.ok_bind]
      exact ⟨by rw [ih.1]; simp [h], ih.2⟩
    · rw [h]
      refine ⟨⟨fun h' => (by cases h'), fun h' => ?_⟩, Or.inr rfl⟩
      have := h' a (by simp)
      rw [h] at this
      cases this

theorem checkRows_cases {rows : List (List α)} {chk : α → Go Unit}
    (hc : ∀ x, chk x = .ok () ∨ chk x = .error .check) :
    (checkRows rows chk = .ok () ↔ rows ≠ [] ∧ (∃ c, ∀ row ∈ rows, row.length = c) ∧
      ∀ row ∈ rows, ∀ x ∈ row, chk x = .ok ()) ∧
    (checkRows rows chk = .ok () ∨ checkRows rows chk = .error .check) := by
  cases rows with
  | nil => exact ⟨⟨fun h => (by cases h), fun h => absurd rfl h.1⟩, Or.inr rfl⟩
  | cons r0 rest =>
    have h1 := forM_check (l := r0 :: rest)
      (chk := fun row => if row.length ≠ r0.length then throw .check else pure ()) fun row _ => by
        split
        · exact Or.inr rfl
        · exact Or.inl rfl
    have h2 := forM_check (l := r0 :: rest) (chk := fun row => row.forM chk) fun row _ =>
      (forM_check fun x _ => hc x).2
    have e1 : (∀ x ∈ r0 :: rest, (if x.length ≠ r0.length then throw .check else pure () : Go Unit) =
        .ok ()) ↔ ∃ c, ∀ row ∈ r0 :: rest, row.length = c := by
      constructor
      · intro h
        refine ⟨r0.length, fun row hrow => ?_⟩
        by_contra hne
        have := h row hrow
        rw [if_pos hne] at this
        cases this
      · rintro ⟨c, h⟩ row hrow
        rw [h row hrow, h r0 (by simp), if_neg (by simp)]
        rfl
    have e2 : (∀ row ∈ r0 :: rest, row.forM chk = .ok ()) ↔ ∀ row ∈ r0 :: rest, ∀ x ∈ row, chk x = .ok () :=
      forall_congr' fun row => forall_congr' fun _ => (forM_check fun x _ => hc x).1
    unfold checkRows
    simp only []
    rcases h1.2 with h | h
    · rw [h, Go.ok_bind]
      refine ⟨?_, h2.2⟩
      rw [h2.1, e2]
      exact ⟨fun h' => ⟨by simp, e1.mp (h1.1.mp h), h'⟩, fun h' => h'.2.2⟩
    · rw [h]
      refine ⟨⟨fun h' => (by cases h'), fun h' => ?_⟩, Or.inr rfl⟩
      have := h1.1.mpr (e1.mpr h'.2.1)
      rw [h] at this
      cases this

end

theorem vec_check_cases (a : Vec R) :
    (a.check = .ok () ↔ a.Accepted) ∧ (a.check = .ok () ∨ a.check = .error .check) := by
  unfold Vec.Accepted
  cases a with
  | k l => exact ⟨⟨fun _ => ⟨by simp [Vec.entries, Scalar.Accepted], by simp⟩, fun _ => rfl⟩, Or.inl rfl⟩
  | v l =>
    have h := forM_check (l := l) (chk := Var.check) fun v _ => Var.check_cases v
    refine ⟨h.1.trans ?_, h.2⟩
    simp [Vec.entries, Scalar.Accepted, Var.check_ok_iff]
  | m l =>
    by_cases hl : l = []
    · subst hl
      exact ⟨⟨fun h => (by cases h), fun h => absurd rfl (h.2 (Or.inl ⟨_, rfl⟩))⟩, Or.inr rfl⟩
    · have h := forM_check (l := l) (chk := Mono.check) fun v _ => Mono.check_cases v
      rw [show Vec.check (.m l) = l.forM Mono.check from if_neg hl]
      refine ⟨h.1.trans ?_, h.2⟩
      simp [Vec.entries, Scalar.Accepted, Mono.check_ok_iff, hl]
  | p l =>
    by_cases hl : l = []
    · subst hl
      exact ⟨⟨fun h => (by cases h), fun h => absurd rfl (h.2 (Or.inr ⟨_, rfl⟩))⟩, Or.inr rfl⟩
    · have h := forM_check (l := l) (chk := Poly.check) fun v _ => check_cases (.poly v)
      rw [show Vec.check (.p l) = l.forM Poly.check from if_neg hl]
      refine ⟨h.1.trans ?_, h.2⟩
      simp only [Vec.entries, List.forall_mem_map, ← check_ok_iff_accepted, reduceCtorEq, exists_false,
        false_or, Vec.p.injEq, exists_eq', forall_const, ne_eq, List.map_eq_nil_iff, hl, not_false_eq_true,
        and_true]
      rfl

theorem mat_check_cases (a : Mat R) :
    (a.check = .ok () ↔ a.Accepted) ∧ (a.check = .ok () ∨ a.check = .error .check) := by
  unfold Mat.Accepted
  cases a with
  | k rows => exact ⟨⟨fun _ => ⟨by simp [Mat.entries, Scalar.Accepted], by simp⟩, fun _ => rfl⟩, Or.inl rfl⟩
  | v rows =>
    have h := checkRows_cases (rows := rows) (chk := Var.check) Var.check_cases
    refine ⟨h.1.trans ?_, h.2⟩
    simp [Mat.entries, Scalar.Accepted, Var.check_ok_iff]
    tauto
  | m rows =>
    have h := checkRows_cases (rows := rows) (chk := Mono.check) Mono.check_cases
    refine ⟨h.1.trans ?_, h.2⟩
    simp [Mat.entries, Scalar.Accepted, Mono.check_ok_iff]
    tauto
  | p rows =>
    have h := checkRows_cases (rows := rows) (chk := Poly.check) fun p => check_cases (.poly p)
    refine ⟨h.1.trans ?_, h.2⟩
    simp [Mat.entries, ← check_ok_iff_accepted, Scalar.check]
    tauto

/-- C43: `Check` of an expression of any kind accepts exactly the well-formed ones. -/
theorem expr_check_ok_iff_accepted {e : Expr R} : e.check = .ok () ↔ e.Accepted := by
  cases e with
  | s a => exact check_ok_iff_accepted
  | v a => exact (vec_check_cases a).1
  | m a => exact (mat_check_cases a).1

theorem expr_check_error {e : Expr R} (h : ¬ e.Accepted) : e.check = .error .check := by
  have : e.check = .ok () ∨ e.check = .error .check := by
    cases e with
    | s a => exact check_cases a
    | v a => exact (vec_check_cases a).2
    | m a => exact (mat_check_cases a).2
  exact this.resolve_left fun h' => h (expr_check_ok_iff_accepted.mp h')

/-- Two checks in a row. -/
theorem two_checks {β : Type} {a b : Expr R} (h : ¬ a.Accepted ∨ ¬ b.Accepted) (f : Unit → Go β) :
    (a.check >>= fun _ => b.check >>= f) = .error .check := by
  by_cases ha : a.Accepted
  · rw [expr_check_ok_iff_accepted.mpr ha, Go.ok_bind, expr_check_error (h.resolve_left fun h' => h' ha)]
    rfl
  · rw [expr_check_error ha]
    rfl

theorem k_accepted {c : R} : (Expr.s (.k c)).Accepted := trivial
theorem kvec_accepted {l : List R} : (Expr.v (.k l)).Accepted := (vec_check_cases _).1.mp rfl
theorem kmat_accepted {rows : List (List R)} : (Expr.m (.k rows)).Accepted := (mat_check_cases _).1.mp rfl

theorem vec_plus_rejects {a : Vec R} {e : Expr R} (h : ¬ (Expr.v a).Accepted ∨ ¬ e.Accepted) :
    a.plus e = .error .check := two_checks (a := .v a) h _

theorem mat_plus_rejects {a : Mat R} {e : Expr R} (h : ¬ (Expr.m a).Accepted ∨ ¬ e.Accepted) :
    a.plus e = .error .check := by
  cases a with
  | k rows =>
    show kmPlus rows e = _
    unfold kmPlus
    rw [expr_check_error (h.resolve_left fun h' => h' kmat_accepted)]
    rfl
  | v rows => exact two_checks (a := .m (.v rows)) h _
  | m rows => exact two_checks (a := .m (.m rows)) h _
  | p rows => exact two_checks (a := .m (.p rows)) h _

/-- C43: `Plus` panics when the receiver or the argument, of any kinds, fails `Check`; except a variable
plus a variable (`plus_rejects_false`). -/
theorem expr_plus_rejects_partial {a b : Expr R}
    (h : ¬ a.Accepted ∨ (¬ b.Accepted ∧ ¬ ((∃ v, a = .s (.var v)) ∧ ∃ w, b = .s (.var w)))) :
    (a.plus b).isOk = false := by
  have h' : ¬ a.Accepted ∨ ¬ b.Accepted := h.imp id And.left
  cases a with
  | v a => rw [show (Expr.v a).plus b = _ from vec_plus_rejects h']; rfl
  | m a => rw [show (Expr.m a).plus b = _ from mat_plus_rejects h']; rfl
  | s a =>
    cases b with
    | s b =>
      have h1 : a.plus b = .error .check := plus_rejects_partial (h.imp id fun ⟨h2, h3⟩ => ⟨h2, fun ⟨⟨v, hv⟩, w, hw⟩ =>
        h3 ⟨⟨v, by rw [hv]⟩, w, by rw [hw]⟩⟩)
      have h2 : (Expr.s a).plus (.s b) = (do return .s (← a.plus b)) := by cases a <;> rfl
      rw [h2, h1]
      rfl
    | v b =>
      cases a with
      | k c =>
        show (do (Expr.v b).check; b.plus (.s (.k c)) : Go _).isOk = _
        rw [expr_check_error (h'.resolve_left fun h' => h' trivial)]
        rfl
      | var x =>
        show (do (Expr.s (.var x)).check; let out ← b.plus (.s (.var x)); out.asSimplified : Go _).isOk = _
        by_cases hx : (Expr.s (.var x)).Accepted
        · rw [expr_check_ok_iff_accepted.mpr hx, Go.ok_bind,
            vec_plus_rejects (Or.inl (h'.resolve_left fun h' => h' hx))]
          rfl
        · rw [expr_check_error hx]
          rfl
      | mono x =>
        rw [show (Expr.s (.mono x)).plus (.v b) = _ from two_checks (a := .s (.mono x)) (b := .v b) h' _]
        rfl
      | poly p =>
        rw [show (Expr.s (.poly p)).plus (.v b) = _ from two_checks (a := .s (.poly p)) (b := .v b) h' _]
        rfl
    | m b =>
      cases a with
      | k c =>
        show (do (Expr.m b).check; b.plus (.s (.k c)) : Go _).isOk = _
        rw [expr_check_error (h'.resolve_left fun h' => h' trivial)]
        rfl
      | var x =>
        show (x.check >>= fun _ => (throw .unsupported : Go (Expr R))).isOk = _
        cases x.check <;> rfl
      | mono x =>
        rw [show (Expr.s (.mono x)).plus (.m b) = _ from two_checks (a := .s (.mono x)) (b := .m b) h' _]
        rfl
      | poly p =>
        rw [show (Expr.s (.poly p)).plus (.m b) = _ from two_checks (a := .s (.poly p)) (b := .m b) h' _]
        rfl

theorem vec_mul_rejects {a : Vec R} {e : Expr R} (h : ¬ (Expr.v a).Accepted ∨ ¬ e.Accepted) :
    a.mul e = .error .check := by
  cases e with
  | s b => exact two_checks (a := .v a) (b := .s b) h _
  | v b => exact two_checks (a := .v a) (b := .v b) h _
  | m b => exact two_checks (a := .v a) (b := .m b) h _

theorem mat_mul_rejects {a : Mat R} {e : Expr R} (h : ¬ (Expr.m a).Accepted ∨ ¬ e.Accepted) :
    a.mul e = .error .check := by
  cases a with
  | k rows =>
    show kmMul rows e = _
    unfold kmMul
    rw [expr_check_error (h.resolve_left fun h' => h' kmat_accepted)]
    rfl
  | v rows => exact two_checks (a := .m (.v rows)) h _
  | m rows => exact two_checks (a := .m (.m rows)) h _
  | p rows => exact two_checks (a := .m (.p rows)) h _

/-- C43: `Multiply` panics when the receiver or the argument, of any kinds, fails `Check`. -/
theorem expr_mul_rejects {a b : Expr R} (h : ¬ a.Accepted ∨ ¬ b.Accepted) :
    a.mul b = .error .check := by
  cases a with
  | v a => exact vec_mul_rejects h
  | m a => exact mat_mul_rejects h
  | s a =>
    cases b with
    | s b =>
      have h2 : (Expr.s a).mul (.s b) = (do return .s (← a.mul b)) := by cases a <;> rfl
      rw [h2, mul_rejects h]
      rfl
    | v b =>
      cases a with
      | k c =>
        show (do (Expr.v b).check; throw .unsupported : Go _) = _
        rw [expr_check_error (h.resolve_left fun h' => h' trivial)]
        rfl
      | var x => exact two_checks (a := .s (.var x)) (b := .v b) h _
      | mono x => exact two_checks (a := .s (.mono x)) (b := .v b) h _
      | poly p => exact two_checks (a := .s (.poly p)) (b := .v b) h _
    | m b =>
      cases a with
      | k c =>
        show (do (Expr.m b).check; throw .unsupported : Go _) = _
        rw [expr_check_error (h.resolve_left fun h' => h' trivial)]
        rfl
      | var x => exact two_checks (a := .s (.var x)) (b := .m b) h _
      | mono x => exact two_checks (a := .s (.mono x)) (b := .m b) h _
      | poly p => exact two_checks (a := .s (.poly p)) (b := .m b) h _

/-- C43: `Minus` panics when the receiver or the argument, of any kinds, fails `Check`. -/
theorem expr_minus_rejects {a b : Expr R} (h : ¬ a.Accepted ∨ ¬ b.Accepted) :
    a.minus b = .error .check := by
  cases a with
  | s a =>
    cases a with
    | k c =>
      show (b.check >>= fun _ => _) = _
      rw [expr_check_error (h.resolve_left fun h' => h' trivial)]
      rfl
    | var x => exact two_checks (a := .s (.var x)) h _
    | mono x => exact two_checks (a := .s (.mono x)) h _
    | poly p => exact two_checks (a := .s (.poly p)) h _
  | v a =>
    cases a with
    | k l =>
      show (b.check >>= fun _ => _) = _
      rw [expr_check_error (h.resolve_left fun h' => h' kvec_accepted)]
      rfl
    | v l => exact two_checks (a := .v (.v l)) h _
    | m l => exact two_checks (a := .v (.m l)) h _
    | p l => exact two_checks (a := .v (.p l)) h _
  | m a => exact two_checks (a := .m a) h _

/-- C43: `Power` panics on a malformed vector or matrix. -/
theorem array_power_rejects (n : Int) :
    (∀ a : Vec R, ¬ (Expr.v a).Accepted → a.power n = .error .check) ∧
    (∀ a : Mat R, ¬ (Expr.m a).Accepted → a.power n = .error .check) := by
  constructor
  · intro a h
    unfold Vec.power
    rw [show a.check = _ from expr_check_error h]
    rfl
  · intro a h
    unfold Mat.power
    rw [show a.check = _ from expr_check_error h]
    rfl

/-- C43: `Comparison`, and with it `LessEq`, `GreaterEq` and `Eq`, panics when either side fails
`Check`. -/
theorem comparison_rejects {a b : Expr R} (s : Sense) (h : ¬ a.Accepted ∨ ¬ b.Accepted) :
    a.comparison b s = .error .check := by
  cases a with
  | s a => exact two_checks (a := .s a) h _
  | v a => exact two_checks (a := .v a) h _
  | m a => exact two_checks (a := .m a) h _

theorem three_checks {β : Type} {a : Expr R} {v : Var R} {s : Scalar R}
    (h : ¬ a.Accepted ∨ ¬ v.OK ∨ ¬ s.Accepted) (f : Unit → Go β) :
    (a.check >>= fun _ => v.check >>= fun _ => s.check >>= f) = .error .check := by
  by_cases ha : a.Accepted
  · rw [expr_check_ok_iff_accepted.mpr ha, Go.ok_bind]
    by_cases hv : v.OK
    · rw [Var.check_ok_iff.mpr hv, Go.ok_bind,
        check_error ((h.resolve_left fun h' => h' ha).resolve_left fun h' => h' hv)]
      rfl
    · rw [Var.check_error hv]
      rfl
  · rw [expr_check_error ha]
    rfl

/-- C43: `Substitute` of a vector or matrix panics on a malformed receiver, variable or replacement.
(Constants ignore their arguments.) -/
theorem array_substitute_rejects {e : Expr R} {v : Var R} {s : Scalar R}
    (hk : ∀ x, e = .s x → ∀ c, x ≠ .k c) (hkv : ∀ l, e ≠ .v (.k l)) (hkm : ∀ rows, e ≠ .m (.k rows))
    (h : ¬ e.Accepted ∨ ¬ v.OK ∨ ¬ s.Accepted) : e.substitute v s = .error .check := by
  cases e with
  | s a =>
    show (do return Expr.s (← a.substitute v s)) = _
    rw [substitute_rejects (hk a rfl) h]
    rfl
  | v a =>
    have : a.substitute v s = .error .check := by
      cases a with
      | k l => exact absurd rfl (hkv l)
      | v l => exact three_checks (a := .v (.v l)) h _
      | m l => exact three_checks (a := .v (.m l)) h _
      | p l => exact three_checks (a := .v (.p l)) h _
    show (do return Expr.v (← a.substitute v s)) = _
    rw [this]
    rfl
  | m a =>
    have : a.substitute v s = .error .check := by
      cases a with
      | k l => exact absurd rfl (hkm l)
      | v l => exact three_checks (a := .m (.v l)) h _
      | m l => exact three_checks (a := .m (.m l)) h _
      | p l => exact three_checks (a := .m (.p l)) h _
    show (do return Expr.m (← a.substitute v s)) = _
    rw [this]
    rfl

theorem checkSubMap_rejects {sm : SubMap R} (h : ∃ kv ∈ sm, ¬ kv.1.OK ∨ ¬ kv.2.Accepted) :
    checkSubMap sm = .error .check := by
  unfold checkSubMap
  have h1 := forM_check (l := sm) (chk := fun kv => do kv.1.check; kv.2.check) fun kv _ => by
    rcases Var.check_cases kv.1 with h | h <;> rw [h]
    · exact check_cases kv.2
    · exact Or.inr rfl
  refine h1.2.resolve_left fun h2 => ?_
  obtain ⟨kv, h3, h4⟩ := h
  have h5 := h1.1.mp h2 kv h3
  rcases h4 with h4 | h4
  · simp only [Var.check_error h4] at h5
    cases h5
  · rcases Var.check_cases kv.1 with h | h <;> simp only [h, check_error h4] at h5 <;> cases h5

theorem map_checks {β : Type} {a : Expr R} {sm : SubMap R}
    (h : ¬ a.Accepted ∨ ∃ kv ∈ sm, ¬ kv.1.OK ∨ ¬ kv.2.Accepted) (f : Unit → Go β) :
    (a.check >>= fun _ => checkSubMap sm >>= f) = .error .check := by
  by_cases ha : a.Accepted
  · rw [expr_check_ok_iff_accepted.mpr ha, Go.ok_bind, checkSubMap_rejects (h.resolve_left fun h' => h' ha)]
    rfl
  · rw [expr_check_error ha]
    rfl

/-- C43: `SubstituteAccordingTo` of any kind panics on a malformed receiver and on a malformed key or
value of the map.  (Constants ignore their arguments.) -/
theorem array_substMap_rejects {e : Expr R} {sm : SubMap R}
    (hk : ∀ x, e = .s x → ∀ c, x ≠ .k c) (hkv : ∀ l, e ≠ .v (.k l)) (hkm : ∀ rows, e ≠ .m (.k rows))
    (h : ¬ e.Accepted ∨ ∃ kv ∈ sm, ¬ kv.1.OK ∨ ¬ kv.2.Accepted) : e.substMap sm = .error .check := by
  cases e with
  | s a =>
    show (do return Expr.s (← a.substMap sm)) = _
    rw [substMap_rejects (hk a rfl) h]
    rfl
  | v a =>
    have : a.substMap sm = .error .check := by
      cases a with
      | k l => exact absurd rfl (hkv l)
      | v l => exact map_checks (a := .v (.v l)) h _
      | m l => exact map_checks (a := .v (.m l)) h _
      | p l => exact map_checks (a := .v (.p l)) h _
    show (do return Expr.v (← a.substMap sm)) = _
    rw [this]
    rfl
  | m a =>
    have : a.substMap sm = .error .check := by
      cases a with
      | k l => exact absurd rfl (hkm l)
      | v l => exact map_checks (a := .m (.v l)) h _
      | m l => exact map_checks (a := .m (.m l)) h _
      | p l => exact map_checks (a := .m (.p l)) h _
    show (do return Expr.m (← a.substMap sm)) = _
    rw [this]
    rfl

theorem mapM_ok_mem {α β : Type} {f : α → Go β} {l : List α} {r : List β} (h : l.mapM f = .ok r) {a : α}
    (ha : a ∈ l) : ∃ b, f a = .ok b := by
  induction l generalizing r with
  | nil => cases ha
  | cons x l ih =>
    rw [List.mapM_cons] at h
    obtain ⟨b, h1, h2⟩ := Go.bind_eq_ok.mp h
    obtain ⟨bs, h3, -⟩ := Go.bind_eq_ok.mp h2
    rcases List.mem_cons.mp ha with rfl | ha
    · exact ⟨b, h1⟩
    · exact ih h3 ha

/-- C43: `DerivativeWrt` panics on a malformed receiver, except the empty `PolynomialVector`
(`array_rejects_false`). -/
theorem array_derivative_rejects_partial {e : Expr R} {v : Var R} (h : ¬ e.Accepted)
    (hp : e ≠ .v (.p [])) : (e.derivative v).isOk = false := by
  have hc := expr_check_error h
  cases e with
  | s a =>
    show (do return .s (← a.derivative v) : Go (Expr R)).isOk = _
    rw [derivative_rejects h]
    rfl
  | v a =>
    show (do return .v (← a.derivative v) : Go (Expr R)).isOk = _
    cases a with
    | k l => exact absurd kvec_accepted h
    | v l =>
      unfold Vec.derivative
      simp only [show Vec.check (.v l) = _ from hc]
      rfl
    | m l =>
      unfold Vec.derivative
      simp only [show Vec.check (.m l) = _ from hc]
      rfl
    | p l =>
      have hl : l ≠ [] := fun hl => hp (by rw [hl])
      have hbad : ∃ p ∈ l, ¬ (Scalar.poly p).Accepted := by
        by_contra hno
        refine h ⟨?_, fun _ => by simpa [Vec.entries] using hl⟩
        intro x hx
        obtain ⟨p, h1, rfl⟩ := List.mem_map.mp hx
        by_contra h2
        exact hno ⟨p, h1, h2⟩
      have key : Go.Post (l.mapM fun p => p.derivPoly v) fun _ => False := by
        obtain ⟨p, h1, h2⟩ := hbad
        intro qs hqs
        obtain ⟨q, hq⟩ := mapM_ok_mem hqs h1
        unfold Poly.derivPoly at hq
        rw [show p.derivative v = _ from derivative_rejects h2] at hq
        cases hq
      show (do return .v (← (do return .p (← l.mapM fun p => p.derivPoly v) : Go (Vec R))) : Go (Expr R)).isOk = _
      cases hx : l.mapM fun p => p.derivPoly v with
      | ok qs => exact (key qs hx).elim
      | error e => rfl
  | m a =>
    show (do return .m (← a.derivative v) : Go (Expr R)).isOk = _
    cases a with
    | k rows => exact absurd kmat_accepted h
    | v rows =>
      unfold Mat.derivative Mat.dims
      simp only [show Mat.check (.v rows) = _ from hc]
      rfl
    | m rows =>
      unfold Mat.derivative
      simp only [show Mat.check (.m rows) = _ from hc]
      rfl
    | p rows =>
      unfold Mat.derivative
      simp only [show Mat.check (.p rows) = _ from hc]
      rfl

/-- C43: the queries of the kinds that carry monomials or polynomials panic on a malformed receiver. -/
theorem array_queries_reject :
    (∀ a : Vec R, ¬ (Expr.v a).Accepted →
      a.transpose = .error .check ∧ (∀ w, a.linearCoeff w = .error .check) ∧
      ((∀ l, a ≠ .v l) → a.asSimplified = .error .check ∧ a.constant = .error .check ∧
        (Expr.v a).degree = .error .check ∧ ∀ i, a.atVec i = .error .check) ∧
      ∀ i j, a.at i j = .error .check) ∧
    (∀ a : Mat R, ¬ (Expr.m a).Accepted →
      a.transpose = .error .check ∧ a.dims = .error .check ∧ a.constant = .error .check ∧
      (Expr.m a).variables = .error .check ∧ (∀ i j, a.at i j = .error .check) ∧
      ((∀ rows, a ≠ .v rows) → a.asSimplified = .error .check ∧ (Expr.m a).degree = .error .check)) := by
  constructor
  · intro a h
    have hc : a.check = .error .check := expr_check_error h
    have hl : ∀ w, a.linearCoeff w = .error .check := fun w => by
      unfold Vec.linearCoeff
      rw [hc]
      rfl
    cases a with
    | k l => exact absurd kvec_accepted h
    | v l =>
      refine ⟨?_, hl, fun h => absurd rfl (h l), fun i j => ?_⟩
      · simp only [Vec.transpose, hc]; rfl
      · simp only [Vec.at, hc]; rfl
    | m l =>
      refine ⟨?_, hl, fun _ => ⟨?_, ?_, ?_, fun i => ?_⟩, fun i j => ?_⟩
      · simp only [Vec.transpose, hc]; rfl
      · simp only [Vec.asSimplified, hc]; rfl
      · simp only [Vec.constant, hc]; rfl
      · simp only [Expr.degree, hc]; rfl
      · simp only [Vec.atVec, hc]; rfl
      · simp only [Vec.at, hc]; rfl
    | p l =>
      refine ⟨?_, hl, fun _ => ⟨?_, ?_, ?_, fun i => ?_⟩, fun i j => ?_⟩
      · simp only [Vec.transpose, hc]; rfl
      · simp only [Vec.asSimplified, hc]; rfl
      · simp only [Vec.constant, hc]; rfl
      · simp only [Expr.degree, hc]; rfl
      · simp only [Vec.atVec, hc]; rfl
      · simp only [Vec.at, hc]; rfl
  · intro a h
    have hc : a.check = .error .check := expr_check_error h
    have hd : a.dims = .error .check := by
      unfold Mat.dims
      rw [hc]
      rfl
    cases a with
    | k l => exact absurd kmat_accepted h
    | v l =>
      refine ⟨?_, hd, ?_, ?_, fun i j => ?_, fun h => absurd rfl (h l)⟩
      · simp only [Mat.transpose, hd]; rfl
      · simp only [Mat.constant, hd]; rfl
      · simp only [Expr.variables, hc]; rfl
      · simp only [Mat.at, hc]; rfl
    | m l =>
      refine ⟨?_, hd, ?_, ?_, fun i j => ?_, fun _ => ⟨?_, ?_⟩⟩
      · simp only [Mat.transpose, hd]; rfl
      · simp only [Mat.constant, hd]; rfl
      · simp only [Expr.variables, hc]; rfl
      · simp only [Mat.at, hc]; rfl
      · simp only [Mat.asSimplified, hc]; rfl
      · simp only [Expr.degree, hc]; rfl
    | p l =>
      refine ⟨?_, hd, ?_, ?_, fun i j => ?_, fun _ => ⟨?_, ?_⟩⟩
      · simp only [Mat.transpose, hd]; rfl
      · simp only [Mat.constant, hd]; rfl
      · simp only [Expr.variables, hc]; rfl
      · simp only [Mat.at, hc]; rfl
      · simp only [Mat.asSimplified, hc]; rfl
      · simp only [Expr.degree, hc]; rfl

/-! ## Results pass `Check` -/

/-- C43: the arithmetic operations on non-empty rectangular arrays of canonical entries, of any kinds,
never return an expression that fails `Check`. -/
theorem expr_results_accepted {S : Type} [GoNum S] {a b : Expr S} (ha : a.Nice) (hb : b.Nice) :
    Go.Post (a.plus b) Expr.Accepted ∧ Go.Post (a.minus b) Expr.Accepted ∧
      Go.Post (a.mul b) Expr.Accepted ∧ Go.Post a.transpose Expr.Accepted ∧
      Go.Post a.asSimplified Expr.Accepted ∧
      ∀ v : Var S, v.OK → Go.Post (a.derivative v) Expr.Accepted := by
  have h : ∀ {x : Go (Expr S)}, Go.Post x Expr.Nice → Go.Post x Expr.Accepted := fun h =>
    h.mono fun _ h' => expr_check_ok_iff_accepted.mp h'.check
  exact ⟨h (plus_nice ha hb), h (minus_nice ha hb), h (mul_nice ha hb), h (transpose_nice ha), h ha.simp,
    fun v hv => h (derivative_nice ha hv)⟩

/-! ## Counterexamples and examples -/

/-- C43 fails for arrays: an empty vector of polynomials is differentiated, and a vector with a malformed
variable is simplified, queried for its degree and its constant, and read. -/
theorem array_rejects_false :
    ¬ (Expr.v (.p ([] : List (Poly ℚ)))).Accepted ∧
    (Expr.v (.p [])).derivative wx = .ok (.v (.p [])) ∧
    ¬ (Expr.v (.v [wx, wbad])).Accepted ∧
    (Vec.v [wx, wbad]).asSimplified = .ok (.v [wx, wbad]) ∧
    (Expr.v (.v [wx, wbad])).degree = .ok 1 ∧
    (Vec.v [wx, wbad]).constant = .ok [0, 0] ∧
    (Vec.v [wx, wbad]).atVec 1 = .ok (.var wbad) := by
  refine ⟨fun h => h.2 (Or.inr ⟨_, rfl⟩) rfl, by decide +kernel, fun h => wbad_not_ok ?_, by decide +kernel,
    by decide +kernel, by decide +kernel, by decide +kernel⟩
  exact h.1 (.var wbad) (by simp [Vec.entries])

/-- A matrix of monomials with rows of different length. -/
example : (Expr.m (.m [[wm1 1 0 1], [wm1 1 0 1, wm1 1 1 1]])).plus (.m wMk) = .error .check := by
  refine mat_plus_rejects (a := .m [[wm1 1 0 1], [wm1 1 0 1, wm1 1 1 1]]) (Or.inl fun h => ?_)
  obtain ⟨-, c, hc⟩ := h.2 (by simp)
  have h1 := hc [.mono (wm1 1 0 1)] (by simp [Mat.entries])
  have h2 := hc [.mono (wm1 1 0 1), .mono (wm1 1 1 1)] (by simp [Mat.entries])
  simp only [List.length_cons, List.length_nil] at h1 h2
  omega

end Verif
