import Verif.Model.Methods
import Verif.Props.Args
import Verif.Props.Compile

/-!
# C33: LessEq, GreaterEq and Eq as they are called

The argument is an expression or a number or gonum value that the receiver accepts.
-/

namespace Verif

variable {R : Type} [Field R] [LinearOrder R] {r k : ℕ}

/-- The argument stands for the expression `e`: it is `e`, or a number or gonum value with the value of `e` that
the receiver `a` accepts. -/
def Arg.For (a : Expr R) (x : Arg R) (e : Expr R) : Prop :=
  x = .e e ∨ x.Means e ∧ x.kind ∈ comparisonAccepts a

theorem comparisonArg_for {a e : Expr R} {x : Arg R} (hr : 0 < r) (ha : a.Canon) (sa : a.Shape r k) (hx : x.For a e)
    (s : Sense) : a.comparisonArg x s = a.comparison e s := by
  rcases hx with rfl | ⟨h1, h2⟩
  · cases a with
    | s a => cases a <;> rfl
    | v a => cases a <;> rfl
    | m a => cases a <;> rfl
  · exact comparisonArg_eq ha sa hr h1 h2 s

/-- C33: `a.LessEq(x)` is satisfied exactly where every entry of `a` is at most that of `x`.  Missing: the pairs
of kinds that are not supported (`comparison_false`). -/
theorem lessEqArg_sat_partial {a e : Expr R} {x : Arg R} (hr : 0 < r) (ha : a.Canon) (sa : a.Shape r k)
    (he : e.Canon) (se : e.Shape r k) (hc : Comparable a e) (hx : x.For a e) :
    ∃ c, a.lessEqArg x = .ok c ∧ ∀ ρ, c.Sat ρ ↔
      ∀ i j y z, a.entry i j = some y → e.entry i j = some z → y.value ρ ≤ z.value ρ := by
  unfold Expr.lessEqArg
  rw [comparisonArg_for hr ha sa hx]
  exact comparison_sat_partial hr ha sa he se hc .le

/-- C33: `a.GreaterEq(x)` is satisfied exactly where every entry of `a` is at least that of `x`.  Missing: as for
`lessEqArg_sat_partial`. -/
theorem greaterEqArg_sat_partial {a e : Expr R} {x : Arg R} (hr : 0 < r) (ha : a.Canon) (sa : a.Shape r k)
    (he : e.Canon) (se : e.Shape r k) (hc : Comparable a e) (hx : x.For a e) :
    ∃ c, a.greaterEqArg x = .ok c ∧ ∀ ρ, c.Sat ρ ↔
      ∀ i j y z, a.entry i j = some y → e.entry i j = some z → z.value ρ ≤ y.value ρ := by
  unfold Expr.greaterEqArg
  rw [comparisonArg_for hr ha sa hx]
  exact comparison_sat_partial hr ha sa he se hc .ge

/-- C33: `a.Eq(x)` is satisfied exactly where every entry of `a` equals that of `x`.  Missing: as for
`lessEqArg_sat_partial`. -/
theorem eqArg_sat_partial {a e : Expr R} {x : Arg R} (hr : 0 < r) (ha : a.Canon) (sa : a.Shape r k)
    (he : e.Canon) (se : e.Shape r k) (hc : Comparable a e) (hx : x.For a e) :
    ∃ c, a.eqArg x = .ok c ∧ ∀ ρ, c.Sat ρ ↔
      ∀ i j y z, a.entry i j = some y → e.entry i j = some z → y.value ρ = z.value ρ := by
  unfold Expr.eqArg
  rw [comparisonArg_for hr ha sa hx]
  exact comparison_sat_partial hr ha sa he se hc .eq

/-- `x.LessEq(3)` with the `float64` 3. -/
example : ∃ c, (Expr.s (.var wx)).lessEqArg (.f64 3) = .ok c ∧ c.sense = .le ∧ c.right = .s (.k 3) :=
  ⟨_, rfl, rfl, rfl⟩

example : (Arg.f64 (3 : ℚ)).For (.s (.var wx)) (.s (.k 3)) := Or.inr ⟨.f64 3, by simp [comparisonAccepts, Arg.kind]⟩

end Verif
