import Verif.Model.Constraint
import Verif.SpecArray

/-!
# Specification of constraints

Which assignments satisfy a constraint.  Only the data types of the model are used.
-/

namespace Verif

variable {R : Type}

/-- `a sense b` as a relation between numbers; an unknown sense is never satisfied. -/
def Sense.Holds [LE R] : Sense → R → R → Prop
  | .eq, a, b => a = b
  | .le, a, b => a ≤ b
  | .ge, a, b => b ≤ a
  | .bad _, _, _ => False

/-- One of the three meaningful senses. -/
def Sense.OK (s : Sense) : Prop := s = .eq ∨ s = .le ∨ s = .ge

/-- A scalar constraint with well-formed sides and a meaningful sense. -/
structure SCon.Canon [GoNum R] (c : SCon R) : Prop where
  lhs : c.lhs.Canon
  rhs : c.rhs.Canon
  sense : c.sense.OK

/-- Both sides have their terms in `D`. -/
structure SCon.TermsIn (D : Set (ℕ →₀ ℕ)) (c : SCon R) : Prop where
  lhs : c.lhs.TermsIn D
  rhs : c.rhs.TermsIn D

/-- No side has a constant or a first-degree term written twice. -/
structure SCon.LowDistinct (c : SCon R) : Prop where
  lhs : c.lhs.LowDistinct
  rhs : c.rhs.LowDistinct

/-- The variable `v` is written on one of the sides. -/
def SCon.Mentions (c : SCon R) (v : Var R) : Prop := c.lhs.Mentions v ∨ c.rhs.Mentions v

/-- A constraint with well-formed sides of equal shape and a meaningful sense. -/
structure Con.Canon [GoNum R] (c : Con R) : Prop where
  left : c.left.Canon
  right : c.right.Canon
  shape : ∃ r k, c.left.Shape r k ∧ c.right.Shape r k ∧ 0 < r ∧ 0 < k
  sense : c.sense.OK

/-- The scalar constraints between corresponding entries, as rows. -/
def Con.entries (c : Con R) : List (List (SCon R)) :=
  List.zipWith (List.zipWith fun a b => ⟨a, b, c.sense⟩) c.left.grid c.right.grid

section
variable [CommSemiring R] [LE R]

/-- The assignment `ρ` satisfies the scalar constraint. -/
def SCon.Sat (ρ : ℕ → R) (c : SCon R) : Prop := c.sense.Holds (c.lhs.value ρ) (c.rhs.value ρ)

/-- The assignment `ρ` satisfies the constraint in every entry. -/
def Con.Sat (ρ : ℕ → R) (c : Con R) : Prop :=
  List.Forall₂ (List.Forall₂ (fun a b => c.sense.Holds (a.value ρ) (b.value ρ)))
    c.left.grid c.right.grid

/-- A scalar constraint is satisfied as a constraint iff it is satisfied as a scalar constraint. -/
theorem Con.sat_s (ρ : ℕ → R) (c : SCon R) : (Con.s c).Sat ρ ↔ c.Sat ρ := by
  simp [Con.Sat, SCon.Sat, Con.left, Con.right, Con.sense, Expr.grid]

end

end Verif
