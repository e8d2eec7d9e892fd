import Verif.Props.Checked
import Verif.Props.Implies

/-!
# C77: constraints built from checked programs, at any degree

A caller compares two expressions and then simplifies the constraint, scales it and substitutes in it, in any order.
`ConProg.checked` looks at the variables and the calls, not at the coefficients.
If it says yes, the constraint has exactly the solutions the calls ask for.
-/

set_option linter.unusedSectionVars false

namespace Verif

open MvPolynomial

variable {R : Type}

/-- The calls that build a constraint. -/
inductive ConProg (R : Type) where
  /-- `a.LessEq(b)`, `a.GreaterEq(b)`, `a.Eq(b)` -/
  | compare (a b : Prog R) (s : Sense)
  /-- `c.Simplify()` -/
  | simplify (c : ConProg R)
  /-- `c.ScaleBy(f)` -/
  | scale (c : ConProg R) (f : R)
  /-- `c.Substitute(v, s)` -/
  | subst (c : ConProg R) (v : Var R) (s : Prog R)
  /-- `c.SubstituteAccordingTo(map)` -/
  | substMap (c : ConProg R) (n : ℕ) (key : Fin n → Var R) (val : Fin n → Prog R)

namespace ConProg

/-- Makes the calls. -/
def run [GoNum R] : ConProg R → Go (SCon R)
  | .compare a b s => do
    match ← (Expr.s (← a.run)).comparison (.s (← b.run)) s with
    | .s c => return c
    | _ => throw .other
  | .simplify c => do (← c.run).simplify
  | .scale c f => do (← c.run).scaleBy f
  | .subst c v s => do (← c.run).substitute v (← s.run)
  | .substMap c n key val => do
    let c ← c.run
    let sm ← (List.finRange n).mapM fun j => do return (key j, ← (val j).run)
    c.substMap sm

/-- The solutions the calls ask for. -/
noncomputable def Holds [Field R] [LinearOrder R] : ConProg R → (ℕ → R) → Prop
  | .compare a b s, ρ => s.Holds (eval ρ a.meaning) (eval ρ b.meaning)
  | .simplify c, ρ | .scale c _, ρ => c.Holds ρ
  | .subst c v s, ρ => c.Holds (Function.update ρ v.id (eval ρ s.meaning))
  | .substMap c n key val, ρ => c.Holds fun i =>
    open Classical in if h : ∃ j : Fin n, (key j).id = i then eval ρ (val h.choose).meaning else ρ i

/-- The variables the calls name. -/
def Names : ConProg R → Var R → Prop
  | .compare a b _, w => a.Names w ∨ b.Names w
  | .simplify c, w | .scale c _, w => c.Names w
  | .subst c v s, w => c.Names w ∨ w = v ∨ s.Names w
  | .substMap c _ key val, w => c.Names w ∨ (∃ j, w = key j) ∨ ∃ j, (val j).Names w

/-- All variables pass `Check`, and two with the same ID are the same variable. -/
structure VarsOK [GoNum R] (p : ConProg R) : Prop where
  ok : ∀ v, p.Names v → v.OK
  same : ∀ v w, p.Names v → p.Names w → v.id = w.id → v = w

/-- No map has the same key twice, no factor is zero, and the senses are `<=`, `>=`, `==`. -/
def Proper [Zero R] : ConProg R → Prop
  | .compare a b s => a.Keys ∧ b.Keys ∧ s.OK
  | .simplify c => c.Proper
  | .scale c f => c.Proper ∧ f ≠ 0
  | .subst c _ s => c.Proper ∧ s.Keys
  | .substMap c _ key val => c.Proper ∧ Function.Injective key ∧ ∀ j, (val j).Keys

/-- How the terms of the two sides can be written. -/
def shape : ConProg R → Shape × Shape
  | .compare a b _ => (a.shape, b.shape)
  | .simplify c => (c.shape.1.add c.shape.2, .one)
  | .scale c _ => (⟨c.shape.1.ws, true, true⟩, ⟨c.shape.2.ws, true, true⟩)
  | .subst c v s =>
    (c.shape.1.substAll (fun i => if i = v.id then s.shape else .var i) (fun l => decide (v.id ∈ l)) s.shape.p,
      c.shape.2.substAll (fun i => if i = v.id then s.shape else .var i) (fun l => decide (v.id ∈ l)) s.shape.p)
  | .substMap c n key val =>
    (c.shape.1.substAll (replacements key fun j => (val j).shape) (fun _ => true) ((List.finRange n).any fun j => (val j).shape.p),
      c.shape.2.substAll (replacements key fun j => (val j).shape) (fun _ => true)
        ((List.finRange n).any fun j => (val j).shape.p))

/-- No intermediate result can have two terms that are confused. -/
def checked : ConProg R → Bool
  | .compare a b _ => a.checked && b.checked
  | .simplify c => c.checked && (c.shape.1.add c.shape.2).ok
  | .scale c _ => c.checked && c.shape.1.ok && c.shape.2.ok
  | .subst c v s => c.checked && s.checked &&
      c.shape.1.substAllOk (fun i => if i = v.id then s.shape else .var i) (fun l => decide (v.id ∈ l)) s.shape.p &&
      c.shape.2.substAllOk (fun i => if i = v.id then s.shape else .var i) (fun l => decide (v.id ∈ l)) s.shape.p
  | .substMap c n key val => c.checked && ((List.finRange n).all fun j => (val j).checked) &&
      c.shape.1.substAllOk (replacements key fun j => (val j).shape) (fun _ => true)
        ((List.finRange n).any fun j => (val j).shape.p) &&
      c.shape.2.substAllOk (replacements key fun j => (val j).shape) (fun _ => true)
        ((List.finRange n).any fun j => (val j).shape.p)

/-- The calls with other coefficients. -/
def map {S : Type} (f : R → S) (g : Var R → Var S) : ConProg R → ConProg S
  | .compare a b s => .compare (a.map f g) (b.map f g) s
  | .simplify c => .simplify (c.map f g)
  | .scale c k => .scale (c.map f g) (f k)
  | .subst c v s => .subst (c.map f g) (g v) (s.map f g)
  | .substMap c n key val => .substMap (c.map f g) n (fun j => g (key j)) fun j => (val j).map f g

end ConProg

variable [Field R] [LinearOrder R]

theorem Scalar.plusF64_written {W : Set Writing} (hW : Consistent W) {a : Scalar R} {f : MvPolynomial ℕ R}
    (ha : DenW W f a) (c : R) : Go.Ok (a.plusF64 c) (DenW W (f + C c)) := by
  have := Scalar.plus_sem (respects_den hW) ha (denW_k c)
  cases a with
  | k d => exact this
  | var v | mono m | poly p => exact this.bind fun _ h => Scalar.asSimplified_sem (respects_den hW) h

theorem Scalar.mulF64_written {W : Set Writing} (hW : Consistent W) {a : Scalar R} {f : MvPolynomial ℕ R}
    (ha : DenW W f a) (c : R) : Go.Ok (a.mulF64 c) (DenW W (f * C c)) := by
  refine (Scalar.mulF64_sem (respects_den hW) ha c).mono fun r hr => ?_
  rwa [smul_eq_C_mul, mul_comm] at hr

theorem Scalar.minus_written {W : Set Writing} (hW : Consistent W) {a b : Scalar R} {f g : MvPolynomial ℕ R}
    (ha : DenW W f a) (hb : DenW W g b) : Go.Ok (a.minus b) (DenW W (f - g)) :=
  Scalar.minus_sem (respects_den hW) ha hb

theorem Scalar.minus_names {a b r : Scalar R} (ha : a.Canon) (hb : b.Canon) (h : a.minus b = .ok r) {w : Var R}
    (hw : r.Mentions w) : a.Mentions w ∨ b.Mentions w := by
  obtain ⟨r', h1, -, h3⟩ := minus_total ha hb
  rw [h, Except.ok.injEq] at h1
  exact h3 w (h1 ▸ hw)

theorem Scalar.plusF64_names {a r : Scalar R} (ha : a.Canon) {c : R} (h : a.plusF64 c = .ok r) {w : Var R}
    (hw : r.Mentions w) : a.Mentions w := by
  obtain ⟨r', h1, h2⟩ := Scalar.plusF64_good (good_mentions ha (Scalar.termsIn_univ a) (fun _ h => h)) c
  rw [h, Except.ok.injEq] at h1
  exact (good_iff.mp h2).2.2 w (h1 ▸ hw)

theorem Scalar.mulF64_names {a r : Scalar R} (ha : a.Canon) {c : R} (h : a.mulF64 c = .ok r) {w : Var R}
    (hw : r.Mentions w) : a.Mentions w := by
  obtain ⟨r', h1, h2⟩ := Scalar.mulF64_good (good_mentions ha (Scalar.termsIn_univ a) (fun _ h => h)) c
  rw [h, Except.ok.injEq] at h1
  exact (good_iff.mp h2).2.2 w (h1 ▸ hw)

variable [IsStrictOrderedRing R]

/-- C34 at any degree: if the terms of both sides are written in ways that are not confused, `Simplify` keeps the sense and
the solution set and makes the right side a constant. -/
theorem simplify_con_written {W : Set Writing} (hW : Consistent W) {c : SCon R} (hc : c.Canon)
    (hl : c.lhs.WrittenIn W) (hr : c.rhs.WrittenIn W) :
    ∃ c' k, c.simplify = .ok c' ∧ c'.Canon ∧ c'.lhs.WrittenIn W ∧ c'.sense = c.sense ∧ c'.rhs = .k k ∧
      (∀ v, c'.Mentions v → c.Mentions v) ∧
      c'.lhs.den - c'.rhs.den = c.lhs.den - c.rhs.den ∧ ∀ ρ, c'.Sat ρ ↔ c.Sat ρ := by
  have main : ∃ c' k, (do
      let d ← c.lhs.minus c.rhs
      let l ← d.plusF64 (← c.rhs.constant)
      return (⟨l, .k (← c.rhs.constant), c.sense⟩ : SCon R)) = .ok c' ∧ c'.Canon ∧ c'.lhs.WrittenIn W ∧
      c'.sense = c.sense ∧ c'.rhs = .k k ∧ (∀ v, c'.Mentions v → c.Mentions v) ∧
      c'.lhs.den - c'.rhs.den = c.lhs.den - c.rhs.den ∧ ∀ ρ, c'.Sat ρ ↔ c.Sat ρ := by
    obtain ⟨k, hk⟩ := constant_total hc.rhs
    obtain ⟨d, h1, h2⟩ := Scalar.minus_written hW (denW_of hc.lhs hl) (denW_of hc.rhs hr)
    obtain ⟨l, h3, h4⟩ := Scalar.plusF64_written hW h2 k
    refine ⟨⟨l, .k k, c.sense⟩, k, ?_, ⟨h4.canon, trivial, hc.sense⟩, h4.written, rfl, rfl, ?_, ?_, ?_⟩
    · rw [h1, Go.ok_bind, hk, Go.ok_bind, h3]; rfl
    · rintro v (h | h)
      · exact Scalar.minus_names hc.lhs hc.rhs h1 (Scalar.plusF64_names h2.canon h3 h)
      · exact h.elim
    · show l.den - C k = _
      rw [h4.den]; ring
    · intro ρ
      unfold SCon.Sat Scalar.value
      simp only [h4.den, map_add, map_sub, Scalar.den_k, eval_C]
      exact Sense.holds_shift _ _ _ _
  unfold SCon.simplify
  cases hr' : c.rhs with
  | k r => exact ⟨c, r, rfl, hc, hl, rfl, hr', fun _ h => h, by rw [hr'], fun _ => Iff.rfl⟩
  | var v | mono m | poly p => rw [hr'] at main; exact main

/-- C34 at any degree: the constants of the sides. -/
theorem simplify_con_constant_written {W : Set Writing} (hW : Consistent W) {c : SCon R} (hc : c.Canon)
    (hl : c.lhs.WrittenIn W) (hr : c.rhs.WrittenIn W) (hd : c.rhs.LowDistinct) :
    ∃ c', c.simplify = .ok c' ∧ c'.rhs = .k (coeff 0 c.rhs.den) ∧ coeff 0 c'.lhs.den = coeff 0 c.lhs.den := by
  obtain ⟨c', k, h1, -, -, -, h5, -, h6, -⟩ := simplify_con_written hW hc hl hr
  exact ⟨c', h1, simplify_con_constant_of hc hd h1 h5 h6⟩

/-- C35 at any degree: scaling by a non-zero factor keeps the solution set; the two sides need not be written
consistently with each other. -/
theorem scaleBy_written {W W' : Set Writing} (hW : Consistent W) (hW' : Consistent W') {c : SCon R} (hc : c.Canon)
    (hl : c.lhs.WrittenIn W) (hr : c.rhs.WrittenIn W') (f : R) :
    ∃ c', c.scaleBy f = .ok c' ∧ c'.Canon ∧ c'.lhs.WrittenIn W ∧ c'.rhs.WrittenIn W' ∧ c'.lhs.den = c.lhs.den * C f ∧
      c'.rhs.den = c.rhs.den * C f ∧ (∀ v, c'.Mentions v → c.Mentions v) ∧ c'.sense = flipSense c.sense f ∧
      (f ≠ 0 → ∀ ρ, c'.Sat ρ ↔ c.Sat ρ) := by
  obtain ⟨l, h1, h2⟩ := Scalar.mulF64_written hW (denW_of hc.lhs hl) f
  obtain ⟨r, h3, h4⟩ := Scalar.mulF64_written hW' (denW_of hc.rhs hr) f
  refine ⟨⟨l, r, flipSense c.sense f⟩, ?_, ⟨h2.canon, h4.canon, flipSense_ok hc.sense f⟩, h2.written, h4.written, h2.den,
    h4.den, ?_, rfl, ?_⟩
  · unfold SCon.scaleBy
    rw [hc.check, Go.ok_bind, h1, Go.ok_bind, h3]; rfl
  · rintro v (h | h)
    · exact .inl (Scalar.mulF64_names hc.lhs h1 h)
    · exact .inr (Scalar.mulF64_names hc.rhs h3 h)
  · intro hf ρ
    unfold SCon.Sat Scalar.value
    simp only [h2.den, h4.den, map_mul, eval_C]
    exact flipSense_holds _ hf _ _

/-- C39 at any degree, soundness: if `IsNonnegativityConstraint` is true then the solution set is `{x >= 0}` for one
variable `x`. -/
theorem isNonneg_written {W : Set Writing} (hW : Consistent W) {c : SCon R} (hc : c.Canon)
    (hl : c.lhs.WrittenIn W) (hr : c.rhs.WrittenIn W) (hd : c.LowDistinct) (h0 : coeff 0 c.lhs.den = 0)
    (h : c.isNonneg = .ok true) : ∃ v, c.Mentions v ∧ ∀ ρ, c.Sat ρ ↔ 0 ≤ ρ v.id := by
  obtain ⟨c', k, h1, h2, -, -, h5, h6, h7, h8⟩ := simplify_con_written hW hc hl hr
  obtain ⟨-, e3⟩ := simplify_con_constant_of hc hd.rhs h1 h5 h7
  exact isNonneg_of_simplify hc hd h1 h2 h5 h6 h8 (e3.trans h0) h

/-! ## Programs -/

/-- What is known of the result of a checked program. -/
structure ComputedCon (p : ConProg R) (c : SCon R) : Prop where
  run : p.run = .ok c
  lhs : HasShape p.shape.1 c.lhs.den c.lhs
  rhs : HasShape p.shape.2 c.rhs.den c.rhs
  sense : c.sense.OK
  names : ∀ w, c.Mentions w → p.Names w
  holds : ∀ ρ, c.Sat ρ ↔ p.Holds ρ

theorem HasShape.self {a : Shape} {f : MvPolynomial ℕ R} {x : Scalar R} (h : HasShape a f x) : HasShape a x.den x := by
  rw [h.den.den]
  exact h

theorem ComputedCon.canon {p : ConProg R} {c : SCon R} (h : ComputedCon p c) : c.Canon :=
  ⟨h.lhs.den.canon, h.rhs.den.canon, h.sense⟩

theorem ConProg.run_checked {p : ConProg R} (h : p.checked = true) {U : Var R → Prop}
    (hU : ∀ v, U v → v.OK) (hc : ∀ v w, U v → U w → v.id = w.id → v = w)
    (hp : ∀ v, p.Names v → U v) (hk : p.Proper) : ∃ c, ComputedCon p c := by
  induction p with
  | compare a b s =>
    simp only [ConProg.checked, Bool.and_eq_true] at h
    obtain ⟨x, hx⟩ := Prog.run_checked h.1 hU hc (fun v hv => hp v (.inl hv)) hk.1
    obtain ⟨y, hy⟩ := Prog.run_checked h.2 hU hc (fun v hv => hp v (.inr hv)) hk.2.1
    refine ⟨⟨x, y, s⟩, ?_, hx.has.self, hy.has.self, hk.2.2, fun w hw => hw.imp (hx.names w) (hy.names w), fun ρ => ?_⟩
    · simp only [ConProg.run, hx.run, hy.run, Go.ok_bind, comparison_scalar hx.has.den.good.check hy.has.den.good.check]
      rfl
    · unfold SCon.Sat Scalar.value
      rw [hx.has.den.den, hy.has.den.den]
      rfl
  | simplify c ih =>
    simp only [ConProg.checked, Bool.and_eq_true] at h
    obtain ⟨x, hx⟩ := ih h.1 hp hk
    have s1 : c.shape.1.set ⊆ (c.shape.1.add c.shape.2).set := fun w hw => List.mem_dedup.mpr (List.mem_append_left _ hw)
    have s2 : c.shape.2.set ⊆ (c.shape.1.add c.shape.2).set := fun w hw => List.mem_dedup.mpr (List.mem_append_right _ hw)
    obtain ⟨x', k, h1, h2, h3, h4, h5, h6, -, h8⟩ := simplify_con_written (Shape.ok_consistent h.2) hx.canon
      (SemW.weaken hx.lhs.den s1).written (SemW.weaken hx.rhs.den s2).written
    refine ⟨x', ?_, ⟨denW_of h2.lhs h3, fun _ _ => rfl, fun _ _ => rfl⟩, ?_, h2.sense, fun w hw => hx.names w (h6 w hw),
      fun ρ => (h8 ρ).trans (hx.holds ρ)⟩
    · simp only [ConProg.run, hx.run, Go.ok_bind, h1]
    · rw [h5]
      exact Shape.has_one k
  | scale c f ih =>
    simp only [ConProg.checked, Bool.and_eq_true] at h
    obtain ⟨x, hx⟩ := ih h.1.1 hp hk.1
    obtain ⟨x', h1, h2, h3, h4, -, -, h6, h7, h8⟩ := scaleBy_written (Shape.ok_consistent h.1.2) (Shape.ok_consistent h.2)
      hx.canon hx.lhs.den.written hx.rhs.den.written f
    refine ⟨x', ?_, ⟨denW_of h2.lhs h3, fun _ _ => rfl, fun _ _ => rfl⟩, ⟨denW_of h2.rhs h4, fun _ _ => rfl, fun _ _ => rfl⟩,
      h2.sense, fun w hw => hx.names w (h6 w hw), fun ρ => (h8 hk.2 ρ).trans (hx.holds ρ)⟩
    simp only [ConProg.run, hx.run, Go.ok_bind, h1]
  | subst c v s ih =>
    simp only [ConProg.checked, Bool.and_eq_true] at h
    obtain ⟨x, hx⟩ := ih h.1.1.1 (fun v hv => hp v (.inl hv)) hk.1
    obtain ⟨y, hy⟩ := Prog.run_checked h.1.1.2 hU hc (fun v hv => hp v (.inr (.inr hv))) hk.2
    have hv : v.OK := hU v (hp v (.inr (.inl rfl)))
    have henv : ∀ e : Scalar R, (∀ w, e.Mentions w → x.Mentions w) → SameEnv v e := by
      intro e he w hw hi
      rw [hc w v (hp w (.inl (hx.names w (he w hw)))) (hp v (.inr (.inl rfl))) hi]
    obtain ⟨l, l1, l2⟩ := Shape.has_substitute h.1.2 hx.lhs hy.has hv (henv _ fun _ => .inl)
    obtain ⟨r, r1, r2⟩ := Shape.has_substitute h.2 hx.rhs hy.has hv (henv _ fun _ => .inr)
    refine ⟨⟨l, r, x.sense⟩, ?_, l2.self, r2.self, hx.sense, ?_, fun ρ => ?_⟩
    · simp only [ConProg.run, hx.run, hy.run, Go.ok_bind, SCon.substitute, hx.canon.check, l1, r1]
      rfl
    · rintro w (hw | hw)
      · obtain ⟨l', e1, -, e3⟩ := substitute_total hx.lhs.den.canon hv hy.has.den.canon
        rw [l1, Except.ok.injEq] at e1
        exact (e3 w (e1 ▸ hw)).elim (fun h => .inl (hx.names w (.inl h))) fun h => .inr (.inr (hy.names w h))
      · obtain ⟨r', e1, -, e3⟩ := substitute_total hx.rhs.den.canon hv hy.has.den.canon
        rw [r1, Except.ok.injEq] at e1
        exact (e3 w (e1 ▸ hw)).elim (fun h => .inl (hx.names w (.inr h))) fun h => .inr (.inr (hy.names w h))
    · have key : (fun i => eval ρ (if i = v.id then s.meaning else X i)) = Function.update ρ v.id (eval ρ s.meaning) := by
        funext i
        by_cases h : i = v.id
        · subst h; simp
        · simp [h]
      have := hx.holds (Function.update ρ v.id (eval ρ s.meaning))
      unfold SCon.Sat Scalar.value at this ⊢
      rw [l2.den.den, r2.den.den, Verif.eval_bind₁, Verif.eval_bind₁, key]
      exact this
  | substMap c n key val ih =>
    simp only [ConProg.checked, Bool.and_eq_true, List.all_eq_true] at h
    obtain ⟨x, hx⟩ := ih h.1.1.1 (fun v hv => hp v (.inl hv)) hk.1
    have hy' := fun j => Prog.run_checked (h.1.1.2 j (List.mem_finRange j)) hU hc (fun v hv => hp v (.inr (.inr ⟨j, hv⟩)))
      (hk.2.2 j)
    choose y hy using hy'
    have hkU : ∀ j, U (key j) := fun j => hp _ (.inr (.inl ⟨j, rfl⟩))
    obtain ⟨l, l1, l2, l3⟩ := has_replace hU hc hkU hk.2.1 (fun j => (hy j).has) h.1.2 hx.lhs
      fun w hw => hp w (.inl (hx.names w (.inl hw)))
    obtain ⟨r, r1, r2, r3⟩ := has_replace hU hc hkU hk.2.1 (fun j => (hy j).has) h.2 hx.rhs
      fun w hw => hp w (.inl (hx.names w (.inr hw)))
    refine ⟨⟨l, r, x.sense⟩, ?_, l2.self, r2.self, hx.sense, ?_, fun ρ => ?_⟩
    · simp only [ConProg.run, hx.run, Go.ok_bind]
      rw [mapM_pairs _ key (g := y) (fun j _ => (hy j).run), Go.ok_bind]
      simp only [SCon.substMap, hx.canon.check, Go.ok_bind, l1, r1]
      rfl
    · rintro w (hw | hw)
      · rcases l3 w hw with h' | ⟨j, h'⟩
        · exact .inl (hx.names w (.inl h'))
        · exact .inr (.inr ⟨j, (hy j).names w h'⟩)
      · rcases r3 w hw with h' | ⟨j, h'⟩
        · exact .inl (hx.names w (.inr h'))
        · exact .inr (.inr ⟨j, (hy j).names w h'⟩)
    · refine Iff.trans ?_ (hx.holds _)
      unfold SCon.Sat Scalar.value
      rw [l2.den.den, r2.den.den, Verif.eval_bind₁, Verif.eval_bind₁]
      have key : ∀ i, eval ρ (open Classical in if h : ∃ j : Fin n, (key j).id = i then (val h.choose).meaning else X i) =
          (open Classical in if h : ∃ j : Fin n, (key j).id = i then eval ρ (val h.choose).meaning else ρ i) := by
        intro i
        split
        · rfl
        · simp
      simp only [key]

/-- C77: if the check says yes, none of the calls panics, the constraint is well formed, names no new variable, and is
satisfied exactly where the calls ask for. -/
theorem conProgram_checked {p : ConProg R} (h : p.checked = true) (hv : p.VarsOK) (hk : p.Proper) :
    ∃ c, p.run = .ok c ∧ c.Canon ∧ (∀ w, c.Mentions w → p.Names w) ∧ ∀ ρ, c.Sat ρ ↔ p.Holds ρ := by
  obtain ⟨c, hc⟩ := ConProg.run_checked h hv.ok hv.same (fun _ h => h) hk
  exact ⟨c, hc.run, hc.canon, hc.names, hc.holds⟩

/-- C77: two checked sequences of calls that ask for the same solutions give constraints with the same solutions. -/
theorem conProgram_equivalent {p q : ConProg R} (hp : p.checked = true) (hq : q.checked = true) (vp : p.VarsOK)
    (vq : q.VarsOK) (kp : p.Proper) (kq : q.Proper) (h : ∀ ρ, p.Holds ρ ↔ q.Holds ρ) :
    ∃ c d, p.run = .ok c ∧ q.run = .ok d ∧ ∀ ρ, c.Sat ρ ↔ d.Sat ρ := by
  obtain ⟨c, c1, -, -, c2⟩ := conProgram_checked hp vp kp
  obtain ⟨d, d1, -, -, d2⟩ := conProgram_checked hq vq kq
  exact ⟨c, d, c1, d1, fun ρ => (c2 ρ).trans ((h ρ).trans (d2 ρ).symm)⟩

omit [Field R] [LinearOrder R] [IsStrictOrderedRing R] in
/-- C77: the answer of the check does not depend on the coefficients. -/
theorem conChecked_coeffs {S : Type} {p : ConProg R} (f : R → S) (g : Var R → Var S) (hg : ∀ v, (g v).id = v.id) :
    (p.map f g).checked = p.checked ∧ (p.map f g).shape = p.shape := by
  have E := fun q : Prog R => (checked_coeffs (p := q) f g hg).1
  have F := fun q : Prog R => (checked_coeffs (p := q) f g hg).2
  have G : ∀ (n : ℕ) (key : Fin n → Var R) (sh : Fin n → Shape),
      replacements (fun j => g (key j)) sh = replacements key sh := by
    intro n key sh
    funext i
    simp only [replacements, hg]
  induction p with
  | compare a b s => simp only [ConProg.map, ConProg.checked, ConProg.shape, E, F, and_self]
  | simplify c ih => simp only [ConProg.map, ConProg.checked, ConProg.shape, ih.1, ih.2, and_self]
  | scale c k ih => simp only [ConProg.map, ConProg.checked, ConProg.shape, ih.1, ih.2, and_self]
  | subst c v s ih => simp only [ConProg.map, ConProg.checked, ConProg.shape, ih.1, ih.2, E, F, hg, and_self]
  | substMap c n key val ih => simp only [ConProg.map, ConProg.checked, ConProg.shape, ih.1, ih.2, E, F, G, and_self]

/-! ## Examples -/

/-- `x^3 + 2 x^2 y <= 3 (x y) y + 1`, simplified, scaled by `-2`, and `x` replaced by `y + 1`. -/
private def wCon : ConProg ℚ :=
  .subst (.scale (.simplify (.compare (.plus (.pow (.var wx) 3) (.mul (.k 2) (.mul (.pow (.var wx) 2) (.var wy))))
    (.plus (.mul (.k 3) (.mul (.mul (.var wx) (.var wy)) (.var wy))) (.k 1)) .le)) (-2)) wx (.plus (.var wy) (.k 1))

/-- A cubic constraint passes the check, and what it stands for is what one expects. -/
example : ∃ c, wCon.run = .ok c ∧ ∀ ρ, c.Sat ρ ↔
    (ρ 1 + 1) ^ 3 + 2 * ((ρ 1 + 1) ^ 2 * ρ 1) ≤ 3 * ((ρ 1 + 1) * ρ 1 * ρ 1) + 1 := by
  obtain ⟨c, h1, -, -, h2⟩ := conProgram_checked (p := wCon) (by decide +kernel) (by
    have : ∀ v, wCon.Names v → v = wx ∨ v = wy := by
      intro v hv
      simp only [wCon, ConProg.Names, Prog.Names] at hv
      tauto
    refine ⟨fun v hv => ?_, fun v w hv hw => ?_⟩
    · rcases this v hv with rfl | rfl <;> exact wv_ok _
    · rcases this v hv with rfl | rfl <;> rcases this w hw with rfl | rfl <;> decide +kernel)
    (by simp [wCon, ConProg.Proper, Prog.Keys, Sense.OK])
  refine ⟨c, h1, fun ρ => (h2 ρ).trans ?_⟩
  simp [wCon, ConProg.Holds, Prog.meaning, Sense.Holds, wv, Function.update]

private abbrev wW : Shape := ⟨[([0, 1], [2, 1]), ([0, 1], [1, 2]), ([0], [1])], true, true⟩

private theorem wW_ok : Consistent wW.set := Shape.ok_consistent (by decide +kernel)

private theorem wWritten {l : List (Mono ℚ)} (h : ∀ m ∈ l, m.vars ≠ [] → m.writing ∈ wW.ws) :
    (Scalar.poly ⟨l⟩).WrittenIn wW.set := h

/-- `x^2 y + x <= x^2 y + 3 x y^2 + 2`, where both orders of the exponents appear, meets the hypotheses of
`simplify_con_written` and `scaleBy_written`; this is the result. -/
example :
    let c : SCon ℚ := ⟨.poly ⟨[wm2 1 0 1 2 1, wm1 1 0 1]⟩, .poly ⟨[wm2 1 0 1 2 1, wm2 3 0 1 1 2, wm0 2]⟩, .le⟩
    c.Canon ∧ c.lhs.WrittenIn wW.set ∧ c.rhs.WrittenIn wW.set ∧
      c.simplify = .ok ⟨.poly ⟨[wm1 1 0 1, wm2 (-3) 0 1 1 2]⟩, .k 2, .le⟩ := by
  refine ⟨⟨⟨by simp, ?_⟩, ⟨by simp, ?_⟩, .inr (.inl rfl)⟩, wWritten ?_, wWritten ?_, by decide +kernel⟩
  · simp [wm2_canon, wm1_canon]
  · simp [wm2_canon, wm0_canon]
  · decide +kernel
  · decide +kernel

/-- `x^2 y + x >= x^2 y` meets the hypotheses of `isNonneg_written`. -/
example :
    let c : SCon ℚ := ⟨.poly ⟨[wm2 1 0 1 2 1, wm1 1 0 1]⟩, .mono (wm2 1 0 1 2 1), .ge⟩
    c.isNonneg = .ok true := by
  decide +kernel

/-- `x^2 y <= x (y^2)` is refused once it is to be simplified: the library writes the right side `y^2 x`, and confuses the
two terms (`simplify_con_false`). -/
example : (ConProg.compare (R := ℚ) (.mul (.pow (.var wx) 2) (.var wy)) (.mul (.var wx) (.pow (.var wy) 2)) .le).checked =
      true ∧
    (ConProg.simplify (.compare (R := ℚ) (.mul (.pow (.var wx) 2) (.var wy)) (.mul (.var wx) (.pow (.var wy) 2)) .le)).checked =
      false := by
  decide +kernel

end Verif
