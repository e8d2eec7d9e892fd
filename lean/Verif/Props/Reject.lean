import Verif.Lemmas.Lists
import Verif.Witness

/-!
# C43: malformed scalar operands are rejected, results pass `Check`

All theorems here are for every number type, IEEE included.
-/

set_option linter.unusedSectionVars false

namespace Verif

variable {R : Type}

/-- What the documentation of `Check` promises for a monomial: as many exponents as factors. -/
def Mono.Accepted (m : Mono R) : Prop := m.exps.length = m.vars.length

/-- What `Check` accepts: bounds in order, as many exponents as factors, at least one term. -/
def Scalar.Accepted [GoNum R] : Scalar R → Prop
  | .k _ => True
  | .var v => v.OK
  | .mono m => m.Accepted
  | .poly p => p.monos ≠ [] ∧ ∀ m ∈ p.monos, m.Accepted

/-- If the computation returns, the returned value satisfies `Q`. -/
def Go.Post {α : Type} (x : Go α) (Q : α → Prop) : Prop := ∀ a, x = .ok a → Q a

namespace Go

theorem post_pure {α : Type} {Q : α → Prop} {a : α} (h : Q a) : Go.Post (pure a) Q := by
  intro b hb
  cases hb
  exact h

theorem post_throw {α : Type} {Q : α → Prop} {e : Err} : Go.Post (throw e : Go α) Q := by
  intro b hb
  cases hb

theorem Post.bind {α β : Type} {x : Go α} {f : α → Go β} {P : α → Prop} {Q : β → Prop}
    (h : Go.Post x P) (hf : ∀ a, P a → Go.Post (f a) Q) : Go.Post (x >>= f) Q := by
  cases x with
  | error e => intro b hb; cases hb
  | ok a => exact hf a (h a rfl)

theorem post_true {α : Type} {x : Go α} : Go.Post x (fun _ => True) := fun _ _ => trivial

theorem post_bind' {α β : Type} {x : Go α} {f : α → Go β} {Q : β → Prop}
    (hf : ∀ a, x = .ok a → Go.Post (f a) Q) : Go.Post (x >>= f) Q := by
  cases x with
  | error e => intro b hb; cases hb
  | ok a => exact hf a rfl

theorem Post.mono {α : Type} {x : Go α} {P Q : α → Prop} (h : Go.Post x P)
    (hpq : ∀ a, P a → Q a) : Go.Post x Q := fun a ha => hpq a (h a ha)

theorem post_foldlM {α β : Type} {f : β → α → Go β} {I : β → Prop} {l : List α} {b : β}
    (hb : I b) (hstep : ∀ a ∈ l, ∀ b, I b → Go.Post (f b a) I) : Go.Post (l.foldlM f b) I := by
  induction l generalizing b with
  | nil => exact post_pure hb
  | cons a l ih =>
    rw [List.foldlM_cons]
    exact (hstep a (by simp) b hb).bind (fun b' hb' => ih hb' (fun x hx => hstep x (by simp [hx])))

theorem post_mapM {α β : Type} {f : α → Go β} {Q : β → Prop} {l : List α}
    (h : ∀ a ∈ l, Go.Post (f a) Q) : Go.Post (l.mapM f) (fun r => r.length = l.length ∧ ∀ b ∈ r, Q b) := by
  induction l with
  | nil => exact post_pure (by simp)
  | cons a l ih =>
    rw [List.mapM_cons]
    refine (h a (by simp)).bind (fun b hb => (ih (fun x hx => h x (by simp [hx]))).bind ?_)
    rintro r ⟨h1, h2⟩
    refine post_pure ⟨by simp [h1], ?_⟩
    intro c hc
    rcases List.mem_cons.mp hc with rfl | hc
    · exact hb
    · exact h2 c hc

end Go

section Checks
variable [GoNum R]

theorem Var.check_ok_iff {v : Var R} : v.check = .ok () ↔ v.OK := by
  unfold Var.check Var.OK
  cases GoNum.le v.upper v.lower <;> simp [Go.pure_eq, throw, throwThe, MonadExceptOf.throw]

theorem Mono.check_ok_iff {m : Mono R} : m.check = .ok () ↔ m.Accepted := by
  unfold Mono.check Mono.Accepted
  by_cases h : m.exps.length = m.vars.length <;>
    simp [h, Go.pure_eq, throw, throwThe, MonadExceptOf.throw]

private theorem forM_check_ok_iff {l : List (Mono R)} :
    l.forM Mono.check = .ok () ↔ ∀ m ∈ l, m.Accepted := by
  induction l with
  | nil => simp [Go.pure_eq]
  | cons m l ih =>
    rw [List.forall_mem_cons, ← ih, ← Mono.check_ok_iff]
    show (do m.check; l.forM Mono.check) = _ ↔ _
    cases h : m.check with
    | error e => simp [bind, Except.bind]
    | ok u => cases u; simp [bind, Except.bind]

/-- `Check` returns no error exactly on the accepted expressions. -/
theorem check_ok_iff_accepted {e : Scalar R} : e.check = .ok () ↔ e.Accepted := by
  cases e with
  | k c => simp [Scalar.check, Scalar.Accepted, Go.pure_eq]
  | var v => exact Var.check_ok_iff
  | mono m => exact Mono.check_ok_iff
  | poly p =>
    show p.check = .ok () ↔ _
    unfold Poly.check Scalar.Accepted
    by_cases h : p.monos = []
    · simp [h, throw, throwThe, MonadExceptOf.throw]
    · rw [if_neg h, forM_check_ok_iff]
      simp [h]

theorem Mono.check_cases (m : Mono R) : m.check = .ok () ∨ m.check = .error .check := by
  unfold Mono.check
  split
  · exact Or.inr rfl
  · exact Or.inl rfl

theorem Var.check_cases (v : Var R) : v.check = .ok () ∨ v.check = .error .check := by
  unfold Var.check
  split
  · exact Or.inr rfl
  · exact Or.inl rfl

theorem check_cases (e : Scalar R) : e.check = .ok () ∨ e.check = .error .check := by
  cases e with
  | k c => exact Or.inl rfl
  | var v => exact v.check_cases
  | mono m => exact m.check_cases
  | poly p =>
    show p.check = .ok () ∨ p.check = .error .check
    unfold Poly.check
    split
    · exact Or.inr rfl
    · generalize p.monos = l
      induction l with
      | nil => exact Or.inl rfl
      | cons m l ih =>
        show (do m.check; l.forM Mono.check) = _ ∨ (do m.check; l.forM Mono.check) = _
        rcases m.check_cases with h | h
        · rw [h]; exact ih
        · rw [h]; exact Or.inr rfl

theorem check_error {e : Scalar R} (h : ¬ e.Accepted) : e.check = .error .check :=
  (check_cases e).resolve_left (fun hc => h (check_ok_iff_accepted.mp hc))

theorem Var.check_error {v : Var R} (h : ¬ v.OK) : v.check = .error .check :=
  v.check_cases.resolve_left (fun hc => h (Var.check_ok_iff.mp hc))

theorem Go.error_bind {α β : Type} (e : Err) (f : α → Go β) :
    ((Except.error e : Go α) >>= f) = .error e := rfl

/-- C43: `Multiply` panics when the receiver or the argument fails `Check`. -/
theorem mul_rejects {a b : Scalar R} (h : ¬ a.Accepted ∨ ¬ b.Accepted) :
    a.mul b = .error .check := by
  have hb : ¬ b.Accepted → b.check = .error .check := check_error
  have ha : ¬ a.Accepted → a.check = .error .check := check_error
  by_cases haa : a.Accepted
  · have hbe := hb (h.resolve_left (fun hc => hc haa))
    have hae : a.check = .ok () := check_ok_iff_accepted.mpr haa
    cases a with
    | k c => show kMul c b = _; unfold kMul; rw [hbe]; rfl
    | var v => show v.mul b = _; unfold Var.mul; rw [show v.check = .ok () from hae, hbe]; rfl
    | mono m => show m.mul b = _; unfold Mono.mul; rw [show m.check = .ok () from hae, hbe]; rfl
    | poly p =>
      have hp : p.check = .ok () := hae
      cases b with
      | k c => cases hbe
      | var v =>
        show p.mulVar v = _; unfold Poly.mulVar; rw [hp, show v.check = _ from hbe]; rfl
      | mono m =>
        show p.mulMono m = _; unfold Poly.mulMono; rw [hp, show m.check = _ from hbe]; rfl
      | poly q =>
        show p.mulPoly q = _; unfold Poly.mulPoly; rw [hp, show q.check = _ from hbe]; rfl
  · have hae := ha haa
    cases a with
    | k c => exact absurd trivial haa
    | var v => show v.mul b = _; unfold Var.mul; rw [show v.check = _ from hae]; rfl
    | mono m => show m.mul b = _; unfold Mono.mul; rw [show m.check = _ from hae]; rfl
    | poly p =>
      have hp : p.check = .error .check := hae
      cases b with
      | k c => show p.mulK c = _; unfold Poly.mulK; rw [hp]; rfl
      | var v => show p.mulVar v = _; unfold Poly.mulVar; rw [hp]; rfl
      | mono m => show p.mulMono m = _; unfold Poly.mulMono; rw [hp]; rfl
      | poly q => show p.mulPoly q = _; unfold Poly.mulPoly; rw [hp]; rfl

/-- C43: `Plus` panics when the receiver fails `Check`, and when the argument does, unless a
variable is added to a variable.  Missing: `Variable.Plus` does not check its argument
(`plus_rejects_false`). -/
theorem plus_rejects_partial {a b : Scalar R}
    (h : ¬ a.Accepted ∨ (¬ b.Accepted ∧ ¬ ((∃ v, a = .var v) ∧ ∃ w, b = .var w))) :
    a.plus b = .error .check := by
  by_cases haa : a.Accepted
  · obtain ⟨hbn, hvv⟩ := h.resolve_left (fun hc => hc haa)
    have hbe : b.check = .error .check := check_error hbn
    have hae : a.check = .ok () := check_ok_iff_accepted.mpr haa
    cases a with
    | k c => show kPlus c b = _; unfold kPlus; rw [hbe]; rfl
    | var v =>
      show v.plus b = _
      unfold Var.plus
      rw [show v.check = .ok () from hae]
      cases b with
      | k c => cases hbe
      | var w => exact absurd ⟨⟨v, rfl⟩, w, rfl⟩ hvv
      | mono m =>
        have : m.plus (.var v) = .error .check := by
          unfold Mono.plus; rw [show m.check = _ from hbe]; rfl
        simp only [Go.ok_bind, this]
        rfl
      | poly p =>
        have : p.plusVar v = .error .check := by
          unfold Poly.plusVar; rw [show p.check = _ from hbe]; rfl
        simp only [Go.ok_bind, this]
        rfl
    | mono m => show m.plus b = _; unfold Mono.plus; rw [show m.check = .ok () from hae, hbe]; rfl
    | poly p =>
      have hp : p.check = .ok () := hae
      cases b with
      | k c => cases hbe
      | var v =>
        show p.plusVar v = _; unfold Poly.plusVar; rw [hp, show v.check = _ from hbe]; rfl
      | mono m =>
        show p.plusMono m = _; unfold Poly.plusMono; rw [hp, show m.check = _ from hbe]; rfl
      | poly q =>
        show p.plusPoly q = _; unfold Poly.plusPoly; rw [hp, show q.check = _ from hbe]; rfl
  · have hae := check_error haa
    cases a with
    | k c => exact absurd trivial haa
    | var v => show v.plus b = _; unfold Var.plus; rw [show v.check = _ from hae]; rfl
    | mono m => show m.plus b = _; unfold Mono.plus; rw [show m.check = _ from hae]; rfl
    | poly p =>
      have hp : p.check = .error .check := hae
      cases b with
      | k c => show p.plusK c = _; unfold Poly.plusK; rw [hp]; rfl
      | var v => show p.plusVar v = _; unfold Poly.plusVar; rw [hp]; rfl
      | mono m => show p.plusMono m = _; unfold Poly.plusMono; rw [hp]; rfl
      | poly q => show p.plusPoly q = _; unfold Poly.plusPoly; rw [hp]; rfl

/-- C43: `Minus` panics when the receiver or the argument fails `Check`. -/
theorem minus_rejects {a b : Scalar R} (h : ¬ a.Accepted ∨ ¬ b.Accepted) :
    a.minus b = .error .check := by
  unfold Scalar.minus
  by_cases haa : a.Accepted
  · rw [check_ok_iff_accepted.mpr haa, Go.ok_bind,
      check_error (h.resolve_left (fun hc => hc haa))]
    rfl
  · rw [check_error haa]; rfl

/-- C43, C04: `Power` panics on a malformed base and on a negative exponent. -/
theorem power_rejects {a : Scalar R} {n : Int} :
    (¬ a.Accepted → a.power n = .error .check) ∧
    (a.Accepted → n < 0 → a.power n = .error .negExponent) := by
  unfold Scalar.power
  constructor
  · intro h; rw [check_error h]; rfl
  · intro h hn; rw [check_ok_iff_accepted.mpr h, Go.ok_bind, if_pos hn]; rfl

/-- C43: `Substitute` panics on a malformed receiver, a malformed variable and a malformed
replacement.  (`K.Substitute` ignores its arguments.) -/
theorem substitute_rejects {e s : Scalar R} {v : Var R} (hk : ∀ c, e ≠ .k c)
    (h : ¬ e.Accepted ∨ ¬ v.OK ∨ ¬ s.Accepted) : e.substitute v s = .error .check := by
  have key : ∀ {α : Type} (c : Go Unit) (f : Go α), c = e.check →
      (do c; v.check; s.check; f) = (.error .check : Go α) := by
    rintro α c f rfl
    by_cases he : e.Accepted
    · rw [check_ok_iff_accepted.mpr he, Go.ok_bind]
      by_cases hv : v.OK
      · rw [Var.check_ok_iff.mpr hv, Go.ok_bind, check_error ((h.resolve_left
          (fun hc => hc he)).resolve_left (fun hc => hc hv))]
        rfl
      · rw [Var.check_error hv]; rfl
    · rw [check_error he]; rfl
  cases e with
  | k c => exact absurd rfl (hk c)
  | var w => exact key w.check _ rfl
  | mono m => exact key m.check _ rfl
  | poly p => exact key p.check _ rfl

/-- C43: `SubstituteAccordingTo` panics on a malformed receiver, and when a key or a value of the map
is malformed.  (`K.SubstituteAccordingTo` ignores its argument.) -/
theorem substMap_rejects {e : Scalar R} {sm : SubMap R} (hk : ∀ c, e ≠ .k c)
    (h : ¬ e.Accepted ∨ ∃ kv ∈ sm, ¬ kv.1.OK ∨ ¬ kv.2.Accepted) :
    e.substMap sm = .error .check := by
  have hmap : (∃ kv ∈ sm, ¬ kv.1.OK ∨ ¬ kv.2.Accepted) → checkSubMap sm = .error .check := by
    unfold checkSubMap
    induction sm with
    | nil => rintro ⟨kv, hkv, -⟩; cases hkv
    | cons kv sm ih =>
      intro hex
      show (do (do kv.1.check; kv.2.check); sm.forM _) = _
      by_cases h1 : kv.1.OK
      · by_cases h2 : kv.2.Accepted
        · rw [Var.check_ok_iff.mpr h1, Go.ok_bind, check_ok_iff_accepted.mpr h2, Go.ok_bind]
          obtain ⟨kv', hm, hb⟩ := hex
          rcases List.mem_cons.mp hm with rfl | hm
          · exact absurd hb (by simp [h1, h2])
          · exact ih (h.imp id (fun _ => ⟨kv', hm, hb⟩)) ⟨kv', hm, hb⟩
        · rw [Var.check_ok_iff.mpr h1, Go.ok_bind, check_error h2]; rfl
      · rw [Var.check_error h1]; rfl
  have key : ∀ {α : Type} (c : Go Unit) (f : Go α), c = e.check →
      (do c; checkSubMap sm; f) = (.error .check : Go α) := by
    rintro α c f rfl
    by_cases he : e.Accepted
    · rw [check_ok_iff_accepted.mpr he, Go.ok_bind, hmap (h.resolve_left (fun hc => hc he))]
      rfl
    · rw [check_error he]; rfl
  cases e with
  | k c => exact absurd rfl (hk c)
  | var w => exact key w.check _ rfl
  | mono m => exact key m.check _ rfl
  | poly p => exact key p.check _ rfl

/-- C43: `DerivativeWrt` panics on a malformed receiver. -/
theorem derivative_rejects {e : Scalar R} {v : Var R} (h : ¬ e.Accepted) :
    e.derivative v = .error .check := by
  have hc := check_error h
  cases e with
  | k c => exact absurd trivial h
  | var w => show (do w.check; _) = _; rw [show w.check = _ from hc]; rfl
  | mono m => show m.derivative v = _; unfold Mono.derivative; rw [show m.check = _ from hc]; rfl
  | poly p => show p.derivative v = _; unfold Poly.derivative; rw [show p.check = _ from hc]; rfl

/-- C43: `AsSimplifiedExpression`, `Constant`, `Degree`, `LinearCoeff` on a polynomial, and
`AsSimplifiedExpression`, `Degree`, `LinearCoeff` on a monomial, panic when the receiver fails
`Check`. -/
theorem queries_reject :
    (∀ p : Poly R, ¬ (Scalar.poly p).Accepted →
      p.asSimplified = .error .check ∧ p.constant = .error .check ∧ p.degree = .error .check ∧
      ∀ w, p.linearCoeff w = .error .check) ∧
    (∀ m : Mono R, ¬ m.Accepted → m.asSimplified = .error .check ∧ m.degree = .error .check ∧
      ∀ w, m.linearCoeff w = .error .check) := by
  constructor
  · intro p h
    have hp : p.check = .error .check := check_error h
    refine ⟨?_, ?_, ?_, fun w => ?_⟩
    · unfold Poly.asSimplified Poly.simplify; rw [hp]; rfl
    · unfold Poly.constant; rw [hp]; rfl
    · unfold Poly.degree; rw [hp]; rfl
    · unfold Poly.linearCoeff; rw [hp]; rfl
  · intro m h
    have hm : m.check = .error .check := check_error (e := .mono m) h
    refine ⟨?_, ?_, fun w => ?_⟩
    · unfold Mono.asSimplified; rw [hm]; rfl
    · unfold Mono.degree; rw [hm]; rfl
    · unfold Mono.linearCoeff; rw [hm]; rfl

/-! ## Results pass `Check`

`Valid` is weaker than `Canon`: factors may repeat and exponents may be zero or negative. -/

/-- As many exponents as factors, and valid factors. -/
def Mono.Valid (m : Mono R) : Prop := m.Accepted ∧ ∀ v ∈ m.vars, v.OK

/-- Accepted by `Check`, with valid variables. -/
def Scalar.Valid : Scalar R → Prop
  | .k _ => True
  | .var v => v.OK
  | .mono m => m.Valid
  | .poly p => p.monos ≠ [] ∧ ∀ m ∈ p.monos, m.Valid

theorem Scalar.Valid.accepted {e : Scalar R} (h : e.Valid) : e.Accepted := by
  cases e with
  | k c => trivial
  | var v => exact h
  | mono m => exact h.1
  | poly p => exact ⟨h.1, fun m hm => (h.2 m hm).1⟩

private theorem kToMono_valid (c : R) : (kToMono c).Valid := ⟨rfl, by simp [kToMono]⟩

private theorem toMono_valid {v : Var R} (h : v.OK) : v.toMono.Valid :=
  ⟨rfl, by simpa [Var.toMono] using h⟩

private theorem withCoeff_valid {m : Mono R} (h : m.Valid) (c : R) :
    Mono.Valid { m with coeff := c } := h

private theorem insertMono_valid {m : Mono R} (hm : m.Valid) {l : List (Mono R)}
    (hl : ∀ x ∈ l, x.Valid) : Go.Post (insertMono m l) (fun r => ∀ x ∈ r, x.Valid) := by
  induction l with
  | nil => exact Go.post_pure (by simpa using hm)
  | cons e es ih =>
    unfold insertMono
    refine Go.post_bind' (fun b _ => ?_)
    rw [List.forall_mem_cons] at hl
    cases b with
    | true =>
      refine Go.post_pure ?_
      rw [List.forall_mem_cons]
      exact ⟨hl.1, hl.2⟩
    | false =>
      refine (ih hl.2).bind (fun r hr => Go.post_pure ?_)
      rw [List.forall_mem_cons]
      exact ⟨hl.1, hr⟩

private theorem simplify_valid {p : Poly R} (hp : ∀ m ∈ p.monos, m.Valid) :
    Go.Post p.simplify (fun q => (Scalar.poly q).Valid) := by
  unfold Poly.simplify
  refine Go.post_bind' (fun _ _ => ?_)
  refine (Go.post_foldlM (I := fun st => ∀ x ∈ st.2, x.Valid) (by simp) ?_).bind ?_
  · intro m hm st hst
    unfold simplifyStep
    split
    · exact Go.post_pure hst
    · exact (insertMono_valid (hp m hm) hst).bind (fun r hr => Go.post_pure hr)
  · intro st hst
    have hall : ∀ m ∈ (if GoNum.feq st.1 GoNum.zero then [] else [kToMono st.1]) ++
        st.2.filter (fun m => !GoNum.feq m.coeff GoNum.zero), m.Valid := by
      intro m hm
      rcases List.mem_append.mp hm with hm | hm
      · split at hm
        · cases hm
        · rw [List.mem_singleton] at hm; subst hm; exact kToMono_valid _
      · exact hst m (List.mem_filter.mp hm).1
    revert hall
    generalize (if GoNum.feq st.1 GoNum.zero then [] else [kToMono st.1]) ++
        st.2.filter (fun m => !GoNum.feq m.coeff GoNum.zero) = out
    intro hall
    refine Go.post_pure ?_
    cases out with
    | nil => exact ⟨by simp, by simpa using kToMono_valid _⟩
    | cons m l => exact ⟨by simp, by simpa using hall⟩

private theorem isDegreeOne_ok {m : Mono R} {v : Var R} {b : Bool} (h : m.isDegreeOne v = .ok b) :
    v.OK := by
  unfold Mono.isDegreeOne at h
  rcases m.check_cases with hm | hm
  · rcases v.check_cases with hv | hv
    · exact Var.check_ok_iff.mp hv
    · rw [hm, hv] at h; cases h
  · rw [hm] at h; cases h

private theorem toVariable_valid {m : Mono R} : Go.Post m.toVariable Var.OK := by
  unfold Mono.toVariable
  refine Go.post_bind' (fun _ _ => ?_)
  split
  · exact Go.post_throw
  · refine Go.post_bind' (fun b hb => ?_)
    split
    · exact Go.post_pure (isDegreeOne_ok hb)
    · exact Go.post_throw

private theorem polySimp_valid {p : Poly R} (hp : ∀ m ∈ p.monos, m.Valid) :
    Go.Post p.asSimplified Scalar.Valid := by
  unfold Poly.asSimplified
  refine (simplify_valid hp).bind (fun q hq => Go.post_bind' (fun d _ => ?_))
  split
  · exact Go.post_bind' (fun c _ => Go.post_pure trivial)
  · have hone : ∀ m, q.monos = [m] → m.Valid := fun m hm => hq.2 m (by rw [hm]; simp)
    rcases hl : q.monos with _ | ⟨m, _ | ⟨m', l⟩⟩
    · simp only
      split <;> exact Go.post_pure hq
    · simp only
      split
      · cases q.variables with
        | nil => exact Go.post_throw
        | cons v vs =>
          refine Go.post_bind' (fun b _ => ?_)
          split
          · exact toVariable_valid.bind (fun v hv => Go.post_pure hv)
          · exact Go.post_pure (hone m hl)
      · exact Go.post_pure (hone m hl)
    · simp only
      split <;> exact Go.post_pure hq

private theorem monoSimp_valid {m : Mono R} (hm : m.Valid) :
    Go.Post m.asSimplified Scalar.Valid := by
  unfold Mono.asSimplified
  refine Go.post_bind' (fun u _ => ?_)
  split
  · exact Go.post_pure trivial
  · split
    · exact Go.post_pure trivial
    · split
      · next v e hv _ =>
        split
        · exact Go.post_pure (hm.2 v (by rw [hv]; simp))
        · split
          · exact Go.post_pure trivial
          · exact Go.post_pure hm
      · split
        · exact Go.post_pure trivial
        · exact Go.post_pure hm

/-- C43: what `AsSimplifiedExpression` returns passes `Check`. -/
theorem asSimplified_valid {e : Scalar R} (he : e.Valid) : Go.Post e.asSimplified Scalar.Valid := by
  cases e with
  | k c => exact Go.post_pure trivial
  | var v => exact Go.post_pure he
  | mono m => exact monoSimp_valid he
  | poly p => exact polySimp_valid he.2

private theorem mem_modify {α : Type} {P : α → Prop} {f : α → α} (hf : ∀ a, P a → P (f a))
    {l : List α} {i : Nat} (h : ∀ a ∈ l, P a) : ∀ a ∈ l.modify i f, P a := by
  induction l generalizing i with
  | nil => simp
  | cons x l ih =>
    rw [List.forall_mem_cons] at h
    cases i with
    | zero =>
      rw [List.modify_zero_cons, List.forall_mem_cons]
      exact ⟨hf _ h.1, h.2⟩
    | succ i =>
      rw [List.modify_succ_cons, List.forall_mem_cons]
      exact ⟨h.1, ih h.2⟩

private theorem plusK_valid {p : Poly R} (hp : (Scalar.poly p).Valid) (c : R) :
    Go.Post (p.plusK c) Scalar.Valid := by
  unfold Poly.plusK
  refine Go.post_bind' (fun _ _ => polySimp_valid ?_)
  dsimp only
  split
  · intro m hm
    rcases List.mem_append.mp hm with hm | hm
    · exact hp.2 m hm
    · rw [List.mem_singleton] at hm; subst hm; exact kToMono_valid _
  · exact mem_modify (P := Mono.Valid) (f := fun m => { m with coeff := GoNum.add m.coeff c }) (fun a ha => ha) hp.2

private theorem plusVar_valid {p : Poly R} (hp : (Scalar.poly p).Valid) {v : Var R} (hv : v.OK) :
    Go.Post (p.plusVar v) Scalar.Valid := by
  unfold Poly.plusVar
  refine Go.post_bind' (fun _ _ => Go.post_bind' (fun _ _ => Go.post_bind' (fun i _ => ?_)))
  cases i with
  | none =>
    simp only [Go.pure_eq, Go.ok_bind]
    refine polySimp_valid ?_
    intro m hm
    rcases List.mem_append.mp hm with hm | hm
    · exact hp.2 m hm
    · rw [List.mem_singleton] at hm; subst hm; exact toMono_valid hv
  | some i =>
    simp only [Go.pure_eq, Go.ok_bind]
    exact polySimp_valid (mem_modify (P := Mono.Valid)
      (f := fun m => { m with coeff := GoNum.add m.coeff GoNum.one }) (fun a ha => ha) hp.2)

private theorem plusPoly_valid {p q : Poly R} (hp : (Scalar.poly p).Valid)
    (hq : (Scalar.poly q).Valid) : Go.Post (p.plusPoly q) Scalar.Valid := by
  unfold Poly.plusPoly
  refine Go.post_bind' (fun _ _ => Go.post_bind' (fun _ _ => ?_))
  refine (polySimp_valid ?_).bind (fun r hr => asSimplified_valid hr)
  intro m hm
  exact (List.mem_append.mp hm).elim (hp.2 m) (hq.2 m)

private theorem plusMono_valid {p : Poly R} (hp : (Scalar.poly p).Valid) {m : Mono R}
    (hm : m.Valid) : Go.Post (p.plusMono m) Scalar.Valid := by
  unfold Poly.plusMono
  refine Go.post_bind' (fun _ _ => Go.post_bind' (fun _ _ => ?_))
  refine (plusPoly_valid hp ?_).bind (fun r hr => asSimplified_valid hr)
  exact ⟨by simp [Mono.toPoly], by simpa [Mono.toPoly] using hm⟩

private theorem two_valid {a b : Mono R} (ha : a.Valid) (hb : b.Valid) :
    (Scalar.poly ⟨[a, b]⟩).Valid :=
  ⟨by simp, by simpa using ⟨ha, hb⟩⟩

private theorem monoPlus_valid {m : Mono R} (hm : m.Valid) {e : Scalar R} (he : e.Valid) :
    Go.Post (m.plus e) Scalar.Valid := by
  unfold Mono.plus
  refine Go.post_bind' (fun _ _ => Go.post_bind' (fun _ _ => ?_))
  cases e with
  | k c =>
    simp only [Go.pure_eq, Go.ok_bind]
    split
    · exact asSimplified_valid (e := .k _) trivial
    · exact asSimplified_valid (two_valid hm (kToMono_valid c))
  | var v =>
    refine Go.post_bind' (fun b _ => ?_)
    simp only [Go.pure_eq, Go.ok_bind]
    split
    · exact asSimplified_valid (e := .mono _) hm
    · exact asSimplified_valid (two_valid hm (toMono_valid he))
  | mono r =>
    refine Go.post_bind' (fun b _ => ?_)
    simp only [Go.pure_eq, Go.ok_bind]
    split
    · exact asSimplified_valid (e := .mono _) hm
    · exact asSimplified_valid (two_valid hm he)
  | poly p => exact Go.Post.bind (plusMono_valid he hm) (fun r hr => asSimplified_valid hr)

private theorem varPlus_valid {v : Var R} (hv : v.OK) {e : Scalar R} (he : e.Valid) :
    Go.Post (v.plus e) Scalar.Valid := by
  unfold Var.plus
  refine Go.post_bind' (fun _ _ => ?_)
  cases e with
  | k c => exact asSimplified_valid (two_valid (toMono_valid hv) (kToMono_valid c))
  | var w =>
    simp only [Go.pure_eq, Go.ok_bind]
    split
    · exact asSimplified_valid (e := .mono _) ⟨rfl, by simpa using hv⟩
    · exact asSimplified_valid (two_valid (toMono_valid hv) (toMono_valid he))
  | mono m => exact Go.Post.bind (monoPlus_valid he hv) (fun r hr => asSimplified_valid hr)
  | poly p => exact Go.Post.bind (plusVar_valid he hv) (fun r hr => asSimplified_valid hr)

/-- C43: what `Plus` returns passes `Check`. -/
theorem plus_valid {a b : Scalar R} (ha : a.Valid) (hb : b.Valid) :
    Go.Post (a.plus b) Scalar.Valid := by
  cases a with
  | k c =>
    show Go.Post (kPlus c b) _
    unfold kPlus
    refine Go.post_bind' (fun _ _ => ?_)
    cases b with
    | k d => exact Go.post_pure trivial
    | var v => exact varPlus_valid hb (e := .k c) trivial
    | mono m => exact monoPlus_valid hb (e := .k c) trivial
    | poly p => exact plusK_valid hb c
  | var v => exact varPlus_valid ha hb
  | mono m => exact monoPlus_valid ha hb
  | poly p =>
    cases b with
    | k c => exact plusK_valid ha c
    | var v => exact plusVar_valid ha hb
    | mono m => exact plusMono_valid ha hb
    | poly q => exact plusPoly_valid ha hb

private theorem mulMono_valid {m r : Mono R} (hm : m.Valid) (hr : r.Valid) :
    Go.Post (m.mulMono r) Mono.Valid := by
  unfold Mono.mulMono
  have step : ∀ (l : List (Var R × Int)) (vs : List (Var R)) (md : List Int),
      md.length = vs.length →
      Go.Post (l.foldlM (addExponent vs) md) (fun md' => md'.length = vs.length) := by
    intro l vs md h
    refine Go.post_foldlM h ?_
    rintro ⟨v, e⟩ _ md h
    unfold addExponent
    split
    · exact Go.post_throw
    · exact Go.post_pure (by rw [List.length_modify]; exact h)
  refine (step _ _ _ (by simp)).bind (fun md1 h1 => (step _ _ _ h1).bind (fun md2 h2 => ?_))
  refine Go.post_pure ⟨h2, ?_⟩
  intro v hv
  exact (List.mem_append.mp (uniqueVars_subset hv)).elim (hm.2 v) (hr.2 v)

private theorem mulVar_valid {m : Mono R} (hm : m.Valid) {v : Var R} (hv : v.OK) :
    (m.mulVar v).Valid := by
  unfold Mono.mulVar
  have hl : m.exps.length = m.vars.length := hm.1
  split
  · refine ⟨by simp [Mono.Accepted, hl], ?_⟩
    intro w hw
    rcases List.mem_append.mp hw with hw | hw
    · exact hm.2 w hw
    · rw [List.mem_singleton] at hw; subst hw; exact hv
  · exact ⟨by simp [Mono.Accepted, hl], hm.2⟩

private theorem polyMulMono_valid {p : Poly R} (hp : (Scalar.poly p).Valid) {m : Mono R}
    (hm : m.Valid) : Go.Post (p.mulMono m) Scalar.Valid := by
  unfold Poly.mulMono
  refine Go.post_bind' (fun _ _ => Go.post_bind' (fun _ _ => ?_))
  refine (Go.post_mapM (Q := Mono.Valid) (fun a ha => mulMono_valid (hp.2 a ha) hm)).bind ?_
  exact fun r hr => polySimp_valid hr.2

private theorem polyMulK_valid {p : Poly R} (hp : (Scalar.poly p).Valid) (c : R) :
    Go.Post (p.mulK c) Scalar.Valid := by
  unfold Poly.mulK
  refine Go.post_bind' (fun _ _ => polySimp_valid ?_)
  intro m hm
  obtain ⟨a, ha, rfl⟩ := List.mem_map.mp hm
  exact hp.2 a ha

private theorem polyMulVar_valid {p : Poly R} (hp : (Scalar.poly p).Valid) {v : Var R}
    (hv : v.OK) : Go.Post (p.mulVar v) Scalar.Valid := by
  unfold Poly.mulVar
  refine Go.post_bind' (fun _ _ => Go.post_bind' (fun _ _ => polySimp_valid ?_))
  intro m hm
  obtain ⟨a, ha, rfl⟩ := List.mem_map.mp hm
  exact mulVar_valid (hp.2 a ha) hv

private theorem monoMul_valid {m : Mono R} (hm : m.Valid) {e : Scalar R} (he : e.Valid) :
    Go.Post (m.mul e) Scalar.Valid := by
  unfold Mono.mul
  refine Go.post_bind' (fun _ _ => Go.post_bind' (fun _ _ => ?_))
  cases e with
  | k c => exact Go.post_pure hm
  | var v => exact Go.post_pure (mulVar_valid hm he)
  | mono r => exact (mulMono_valid hm he).bind (fun x hx => Go.post_pure hx)
  | poly p => exact polyMulMono_valid he hm

private theorem varMul_valid {v : Var R} (hv : v.OK) {e : Scalar R} (he : e.Valid) :
    Go.Post (v.mul e) Scalar.Valid := by
  unfold Var.mul
  refine Go.post_bind' (fun _ _ => Go.post_bind' (fun _ _ => ?_))
  cases e with
  | k c => exact asSimplified_valid (e := .mono ⟨c, [1], [v]⟩) ⟨rfl, by simpa using hv⟩
  | var w =>
    simp only [Go.pure_eq, Go.ok_bind]
    split
    · exact asSimplified_valid (e := .mono _) ⟨rfl, by simpa using hv⟩
    · exact asSimplified_valid (e := .mono _) ⟨rfl, by simpa using ⟨hv, he⟩⟩
  | mono m => exact Go.Post.bind (monoMul_valid he hv) (fun r hr => asSimplified_valid hr)
  | poly p => exact Go.Post.bind (polyMulVar_valid he hv) (fun r hr => asSimplified_valid hr)

/-- C43: what `Multiply` returns passes `Check`. -/
theorem mul_valid {a b : Scalar R} (ha : a.Valid) (hb : b.Valid) :
    Go.Post (a.mul b) Scalar.Valid := by
  cases a with
  | k c =>
    show Go.Post (kMul c b) _
    unfold kMul
    refine Go.post_bind' (fun _ _ => ?_)
    cases b with
    | k d => exact Go.post_pure trivial
    | var v => exact varMul_valid hb (e := .k c) trivial
    | mono m => exact monoMul_valid hb (e := .k c) trivial
    | poly p => exact polyMulK_valid hb c
  | var v => exact varMul_valid ha hb
  | mono m => exact monoMul_valid ha hb
  | poly p =>
    cases b with
    | k c => exact polyMulK_valid ha c
    | var v => exact polyMulVar_valid ha hb
    | mono m => exact polyMulMono_valid ha hb
    | poly q =>
      show Go.Post (p.mulPoly q) _
      unfold Poly.mulPoly
      refine Go.post_bind' (fun _ _ => Go.post_bind' (fun _ _ => ?_))
      refine (Go.post_foldlM (I := fun e : Scalar R => e.Valid) (b := .k GoNum.zero) trivial ?_).bind (fun r hr => asSimplified_valid hr)
      intro m hm acc hacc
      exact (polyMulMono_valid ha (hb.2 m hm)).bind (fun r hr => plus_valid hacc hr)

/-- C43: what `Minus` and `Power` return passes `Check`. -/
theorem minus_power_valid {a b : Scalar R} (ha : a.Valid) (hb : b.Valid) (n : Int) :
    Go.Post (a.minus b) Scalar.Valid ∧ Go.Post (a.power n) Scalar.Valid := by
  constructor
  · unfold Scalar.minus
    refine Go.post_bind' (fun _ _ => Go.post_bind' (fun _ _ => ?_))
    have hF : Go.Post (b.mulF64 negOne) Scalar.Valid := by
      cases b with
      | k d => exact mul_valid (a := .k d) (b := .k negOne) trivial trivial
      | mono m => exact monoMul_valid hb (e := .k negOne) trivial
      | var v =>
        exact (mul_valid (a := .var v) (b := .k negOne) hb trivial).bind
          (fun r hr => asSimplified_valid hr)
      | poly p =>
        exact (mul_valid (a := .poly p) (b := .k negOne) hb trivial).bind
          (fun r hr => asSimplified_valid hr)
    exact hF.bind (fun r hr => plus_valid ha hr)
  · unfold Scalar.power
    refine Go.post_bind' (fun _ _ => ?_)
    split
    · exact Go.post_throw
    · have : ∀ (k : Nat) (acc : Scalar R), acc.Valid → Go.Post (powLoop a k acc) Scalar.Valid := by
        intro k
        induction k with
        | zero => exact fun acc h => Go.post_pure h
        | succ k ih => exact fun acc h => (mul_valid h ha).bind (fun r hr => ih r hr)
      exact this _ (.k GoNum.one) trivial

private theorem monoDeriv_valid {m : Mono R} (hm : m.Valid) {v : Var R} :
    Go.Post (m.derivative v) Scalar.Valid := by
  unfold Mono.derivative
  refine Go.post_bind' (fun _ _ => Go.post_bind' (fun _ _ => ?_))
  have hl : m.exps.length = m.vars.length := hm.1
  cases h : findVar v m.vars with
  | none => exact Go.post_pure trivial
  | some i =>
    simp only
    cases he : m.exps[i]? with
    | none => exact Go.post_throw
    | some e =>
      simp only
      split
      · exact Go.post_pure trivial
      · split
        · refine Go.post_pure ⟨?_, fun w hw => hm.2 w (List.mem_of_mem_eraseIdx hw)⟩
          simp only [Mono.Accepted, List.length_eraseIdx, hl]
        · exact Go.post_pure ⟨by simp [Mono.Accepted, hl], hm.2⟩

/-- C43: what `DerivativeWrt` returns passes `Check`. -/
theorem derivative_valid {e : Scalar R} (he : e.Valid) (v : Var R) :
    Go.Post (e.derivative v) Scalar.Valid := by
  cases e with
  | k c => exact Go.post_pure trivial
  | var w =>
    refine Go.post_bind' (fun _ _ => Go.post_bind' (fun _ _ => ?_))
    split <;> exact Go.post_pure trivial
  | mono m => exact monoDeriv_valid he
  | poly p =>
    show Go.Post (p.derivative v) _
    unfold Poly.derivative
    refine Go.post_bind' (fun _ _ => Go.post_bind' (fun _ _ => ?_))
    refine (Go.post_foldlM (I := fun l => ∀ m ∈ l, m.Valid) (by simp) ?_).bind ?_
    · intro m hm acc hacc
      unfold derivStep
      split
      · exact Go.post_pure hacc
      · refine (monoDeriv_valid (he.2 m hm)).bind (fun r hr => ?_)
        have happ : ∀ d : Mono R, d.Valid → ∀ x ∈ acc ++ [d], x.Valid := by
          intro d hd x hx
          rcases List.mem_append.mp hx with hx | hx
          · exact hacc x hx
          · rw [List.mem_singleton] at hx; subst hx; exact hd
        cases r with
        | k c =>
          simp only
          split
          · exact Go.post_pure hacc
          · exact Go.post_pure (happ _ (kToMono_valid c))
        | var w => exact Go.post_throw
        | mono d => exact Go.post_pure (happ d hr)
        | poly q => exact Go.post_throw
    · intro ms hms
      cases ms with
      | nil => exact Go.post_pure trivial
      | cons m l => exact Go.post_pure ⟨by simp, hms⟩

end Checks

/-! ## Counterexamples and concrete cases -/

/-- A variable with `Lower > Upper`. -/
def wbad : Var ℚ := ⟨7, 1, 0, 67, "bad", 0⟩

theorem wbad_not_ok : ¬ wbad.OK := by
  unfold Var.OK
  decide +kernel

/-- C43 is false for `Variable.Plus`: an invalid variable is accepted as argument. -/
theorem plus_rejects_false :
    ¬ ∀ a b : Scalar ℚ, ¬ a.Accepted ∨ ¬ b.Accepted → ∃ err, a.plus b = .error err := by
  intro h
  obtain ⟨err, he⟩ := h (.var wx) (.var wbad) (Or.inr wbad_not_ok)
  have : (Scalar.var wx).plus (.var wbad) = .ok (.poly ⟨[wx.toMono, wbad.toMono]⟩) := by
    decide +kernel
  rw [this] at he
  cases he

/-- A product with a malformed monomial panics. -/
example : (Scalar.var wx).mul (.mono ⟨2, [1, 2], [wx]⟩) = .error .check :=
  mul_rejects (Or.inr (by unfold Scalar.Accepted Mono.Accepted; decide))
/-- `plus_rejects_partial` applies to a malformed polynomial. -/
example : (Scalar.var wx).plus (.poly ⟨[]⟩) = .error .check :=
  plus_rejects_partial (Or.inr ⟨fun h => h.1 rfl, fun ⟨_, w, h⟩ => by cases h⟩)
/-- A monomial with a repeated factor and a negative exponent is `Valid` but not `Canon`. -/
example : (Scalar.mono ⟨3, [2, -1], [wx, wx]⟩ : Scalar ℚ).Valid :=
  ⟨rfl, by simpa using wv_ok 0⟩

end Verif
