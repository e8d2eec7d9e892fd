import Verif.Props.ArrayChecked
import Verif.Props.CheckedCon
import Verif.Props.BinaryArr
import Verif.Props.Compile
import Verif.Props.ArraySubst

/-!
# C78: vector and matrix constraints built from checked programs, at any degree

As `ConProg.checked` (C77), entry by entry: a caller compares scalars, vectors or matrices, then simplifies the constraint,
substitutes in it, takes entries of it and scales them, in any order.
The check looks at the variables, sizes and calls, not at the numbers.
-/

set_option linter.unusedSectionVars false

namespace Verif

open MvPolynomial

variable {R : Type}

/-- The calls that build a constraint between expressions with `r` rows and `c` columns. -/
inductive AConProg (R : Type) : ℕ → ℕ → Type
  /-- `a.LessEq(b)`, `a.GreaterEq(b)`, `a.Eq(b)` -/
  | compare {r c} (a b : AProg R r c) (s : Sense) : AConProg R r c
  /-- The same with a number as the second, and as the first operand. -/
  | compareK {r c} (a : AProg R r c) (x : R) (s : Sense) : AConProg R r c
  | kCompare {r c} (x : R) (a : AProg R r c) (s : Sense) : AConProg R r c
  /-- `AsSimplifiedConstraint` -/
  | simplify {r c} (p : AConProg R r c) : AConProg R r c
  /-- `Substitute` -/
  | subst {r c} (p : AConProg R r c) (v : Var R) (s : AProg R 1 1) : AConProg R r c
  /-- `AtVec`, `At` -/
  | at {r c} (p : AConProg R r c) (i : Fin r) (j : Fin c) : AConProg R 1 1
  /-- `ScaleBy` -/
  | scale (p : AConProg R 1 1) (f : R) : AConProg R 1 1

namespace AConProg

/-- Makes the calls. -/
def run [GoNum R] : {r c : ℕ} → AConProg R r c → Go (Con R)
  | _, _, .compare a b s => do (← a.run).comparison (← b.run) s
  | _, _, .compareK a x s => do (← a.run).comparison (.s (.k x)) s
  | _, _, .kCompare x a s => do (Expr.s (.k x)).comparison (← a.run) s
  | _, _, .simplify p => do (← p.run).simplify
  | _, _, .subst p v s => do (← p.run).substitute v (← AProg.asScalar (← s.run))
  | _, _, .at p i j => do
    match ← p.run with
    | .s _ => throw .unsupported
    | .v k => return .s (← k.atVec (i : ℕ))
    | .m k => return .s (← k.at (i : ℕ) (j : ℕ))
  | _, _, .scale p f => do
    match ← p.run with
    | .s k => return .s (← k.scaleBy f)
    | _ => throw .unsupported

/-- What the calls ask for at entry `(i, j)`. -/
def HoldsAt [Field R] [LinearOrder R] : {r c : ℕ} → AConProg R r c → Fin r → Fin c → (ℕ → R) → Prop
  | _, _, .compare a b s, i, j, ρ => s.Holds (eval ρ (a.meaning i j)) (eval ρ (b.meaning i j))
  | _, _, .compareK a x s, i, j, ρ => s.Holds (eval ρ (a.meaning i j)) x
  | _, _, .kCompare x a s, i, j, ρ => s.Holds x (eval ρ (a.meaning i j))
  | _, _, .simplify p, i, j, ρ => p.HoldsAt i j ρ
  | _, _, .subst p v s, i, j, ρ => p.HoldsAt i j (Function.update ρ v.id (eval ρ (s.meaning 0 0)))
  | _, _, .at p i j, _, _, ρ => p.HoldsAt i j ρ
  | _, _, .scale p _, i, j, ρ => p.HoldsAt i j ρ

/-- The variables the calls name. -/
def Names : {r c : ℕ} → AConProg R r c → Var R → Prop
  | _, _, .compare a b _, w => a.Names w ∨ b.Names w
  | _, _, .compareK a _ _, w | _, _, .kCompare _ a _, w => a.Names w
  | _, _, .simplify p, w | _, _, .at p _ _, w | _, _, .scale p _, w => p.Names w
  | _, _, .subst p v s, w => p.Names w ∨ w = v ∨ s.Names w

/-- The conditions on the calls of `AProg.Regular`, no factor is zero, and the senses are `<=`, `>=`, `==`. -/
def Regular [GoNum R] [Zero R] : {r c : ℕ} → AConProg R r c → Prop
  | _, _, .compare a b s => a.Regular ∧ b.Regular ∧ s.OK
  | _, _, .compareK a _ s | _, _, .kCompare _ a s => a.Regular ∧ s.OK
  | _, _, .simplify p | _, _, .at p _ _ => p.Regular
  | _, _, .scale p f => p.Regular ∧ f ≠ 0
  | _, _, .subst p _ s => p.Regular ∧ s.Regular

/-- All variables pass `Check`, and two with the same ID are the same variable. -/
structure VarsOK [GoNum R] {r c : ℕ} (p : AConProg R r c) : Prop where
  ok : ∀ v, p.Names v → v.OK
  same : ∀ v w, p.Names v → p.Names w → v.id = w.id → v = w

/-- How the terms of entry `(i, j)` of the left and of the right side can be written, and whether no two of them can be
confused on the way. -/
def entries : {r c : ℕ} → AConProg R r c → ℕ → ℕ → Entry × Entry
  | _, _, .compare a b _ => fun i j => (a.entry i j, b.entry i j)
  | _, _, .compareK a _ _ => fun i j => (a.entry i j, .const)
  | _, _, .kCompare _ a _ => fun i j => (.const, a.entry i j)
  | _, _, .simplify p => fun i j =>
      (((p.entries i j).1.add (Entry.const.mul .const)).add
        (((p.entries i j).2.add (Entry.const.mul .const)).mul .const), Entry.const.add (Entry.const.mul .const))
  | _, _, .subst p v s => fun i j =>
      ((p.entries i j).1.subst v.id (s.entry 0 0), (p.entries i j).2.subst v.id (s.entry 0 0))
  | _, _, .at p i j => fun _ _ => p.entries i j
  | _, _, .scale p _ => p.entries

/-- The check of one entry. -/
def okAt {r c : ℕ} (p : AConProg R r c) (i j : ℕ) : Bool := (p.entries i j).1.ok && (p.entries i j).2.ok

/-- The check: no two terms of an entry can be confused. -/
def checked {r c : ℕ} (p : AConProg R r c) : Bool :=
  (List.range r).all fun i => (List.range c).all fun j => p.okAt i j

/-- The same calls, with other numbers and variables. -/
def map {S : Type} (f : R → S) (g : Var R → Var S) : {r c : ℕ} → AConProg R r c → AConProg S r c
  | _, _, .compare a b s => .compare (a.map f g) (b.map f g) s
  | _, _, .compareK a x s => .compareK (a.map f g) (f x) s
  | _, _, .kCompare x a s => .kCompare (f x) (a.map f g) s
  | _, _, .simplify p => .simplify (p.map f g)
  | _, _, .subst p v s => .subst (p.map f g) (g v) (s.map f g)
  | _, _, .at p i j => .at (p.map f g) i j
  | _, _, .scale p k => .scale (p.map f g) (f k)

theorem pos {r c : ℕ} (p : AConProg R r c) : 0 < r ∧ 0 < c := by
  induction p with
  | compare a b s => exact a.pos
  | compareK a x s => exact a.pos
  | kCompare x a s => exact a.pos
  | simplify p ih => exact ih
  | subst p v s ih => exact ih
  | «at» p i j ih => exact ⟨one_pos, one_pos⟩
  | scale p f ih => exact ih

end AConProg

/-! ## What is kept by the calls -/

section Steps

variable [Field R] [LinearOrder R] {U : Var R → Prop} {r c : ℕ} {a b e : Expr R}
  {M N : Matrix (Fin r) (Fin c) (MvPolynomial ℕ R)} {A B E : ℕ → ℕ → Entry}

private theorem earr_of_all {e : Expr R} {P : Scalar R → Prop} (h : e.Shape r c) (hp : e.All P) :
    EArr r c (fun _ _ => P) e :=
  (((EArr.self h).and_all hp)).mono fun _ _ _ _ _ h => h.2

/-- An array all of whose entries are the number `x`. -/
private theorem holdsE_all {x : R} (h : e.Shape r c) (hp : e.All (· = .k x)) :
    HoldsE U (fun _ _ => .const) (Matrix.of fun _ _ => C x : Matrix (Fin r) (Fin c) (MvPolynomial ℕ R)) e :=
  (earr_of_all h hp).mono fun i j y hi hj hy => by
    rw [extM_of _ hi hj, hy]
    exact Entry.holds_const x

/-- If a comparison with a number returns, its sides are the array and the number at every place. -/
private theorem compareK_holds {x : R} {s : Sense} {k : Con R} (hr : 0 < r) (hc : 0 < c) (ha : HoldsE U A M a)
    (h : a.comparison (.s (.k x)) s = .ok k) :
    k.left = a ∧ k.right.Shape r c ∧ k.right.All (· = .k x) ∧ k.sense = s := by
  have h1 : GoNum.mul x GoNum.one = x := mul_one x
  cases a with
  | s y =>
    obtain ⟨rfl, rfl⟩ := earr_s_dims ha
    obtain ⟨-, -, h⟩ := Go.bind_eq_ok.mp h
    obtain ⟨-, -, h⟩ := Go.bind_eq_ok.mp h
    cases h
    refine ⟨rfl, ⟨rfl, by simp [Con.right, Expr.grid]⟩, ?_, rfl⟩
    simp [Con.right, Expr.All, Expr.grid]
  | v y =>
    by_cases hy : ∃ l, y = .v l
    · obtain ⟨l, rfl⟩ := hy
      obtain ⟨-, -, h⟩ := Go.bind_eq_ok.mp h
      obtain ⟨-, -, h⟩ := Go.bind_eq_ok.mp h
      obtain ⟨-, -, h⟩ := Go.bind_eq_ok.mp h
      cases h
    · obtain ⟨k', e1, e2⟩ := comparison_const hr hc ha.canon (EArr.shape ha) (by simp)
        (fun l hl => hy ⟨l, by simpa using hl⟩) x s
      rw [h, Except.ok.injEq] at e1
      subst e1
      rwa [h1] at e2
  | m y =>
    obtain ⟨k', e1, e2⟩ := comparison_const hr hc ha.canon (EArr.shape ha) (by simp) (by simp) x s
    rw [h, Except.ok.injEq] at e1
    subst e1
    rwa [h1] at e2

/-- If a comparison of a number with an array returns, its sides are the number at every place and the array. -/
private theorem kCompare_holds {x : R} {s : Sense} {k : Con R} (hr : 0 < r) (ha : HoldsE U A M a)
    (h : (Expr.s (.k x)).comparison a s = .ok k) :
    k.right = a ∧ k.left.Shape r c ∧ k.left.All (· = .k x) ∧ k.sense = s := by
  cases a with
  | s y =>
    obtain ⟨rfl, rfl⟩ := earr_s_dims ha
    obtain ⟨-, -, h⟩ := Go.bind_eq_ok.mp h
    obtain ⟨-, -, h⟩ := Go.bind_eq_ok.mp h
    cases h
    refine ⟨rfl, ⟨rfl, by simp [Con.left, Expr.grid]⟩, ?_, rfl⟩
    simp [Con.left, Expr.All, Expr.grid]
  | v y =>
    obtain rfl : c = 1 := earr_v_cols hr ha
    by_cases hy : (∃ l, y = .k l) ∨ ∃ l, y = .v l
    · obtain ⟨k', e1, e2⟩ := const_comparison hr ha.canon (EArr.shape ha) hy x s
      rw [h, Except.ok.injEq] at e1
      subst e1
      exact e2
    · obtain ⟨-, -, h⟩ := Go.bind_eq_ok.mp h
      obtain ⟨-, -, h⟩ := Go.bind_eq_ok.mp h
      cases y with
      | k l => exact absurd (.inl ⟨l, rfl⟩) hy
      | v l => exact absurd (.inr ⟨l, rfl⟩) hy
      | m l => cases h
      | p l => cases h
  | m y =>
    obtain ⟨-, -, h⟩ := Go.bind_eq_ok.mp h
    obtain ⟨-, -, h⟩ := Go.bind_eq_ok.mp h
    cases h

/-- An array of one number. -/
private theorem holdsE_single {x : R} {M : Matrix (Fin 1) (Fin 1) (MvPolynomial ℕ R)} (h : HoldsE U A M (.s (.k x)))
    (hs : e.Shape 1 1) (hp : e.All (· = .k x)) : HoldsE U A M e :=
  (earr_of_all hs hp).mono fun i j y hi hj hy => by
    obtain rfl : i = 0 := by omega
    obtain rfl : j = 0 := by omega
    rw [hy]
    exact holdsE_s.mp h

/-- If a comparison returns, its sides have the entries of the two operands. -/
private theorem compare_holds {s : Sense} {k : Con R} (hr : 0 < r) (hc : 0 < c) (ha : HoldsE U A M a)
    (hb : HoldsE U B N b) (h : a.comparison b s = .ok k) :
    HoldsE U A M k.left ∧ HoldsE U B N k.right ∧ k.sense = s := by
  by_cases h1 : ∃ x, b = .s (.k x)
  · obtain ⟨x, rfl⟩ := h1
    obtain ⟨rfl, rfl⟩ := earr_s_dims hb
    obtain ⟨e1, e2, e3, e4⟩ := compareK_holds hr hc ha h
    exact ⟨e1 ▸ ha, holdsE_single hb e2 e3, e4⟩
  by_cases h2 : ∃ x, a = .s (.k x)
  · obtain ⟨x, rfl⟩ := h2
    obtain ⟨rfl, rfl⟩ := earr_s_dims ha
    obtain ⟨e1, e2, e3, e4⟩ := kCompare_holds hr hb h
    exact ⟨holdsE_single ha e2 e3, e1 ▸ hb, e4⟩
  cases a with
  | s x =>
    obtain ⟨-, -, h⟩ := Go.bind_eq_ok.mp h
    obtain ⟨-, -, h⟩ := Go.bind_eq_ok.mp h
    cases x with
    | k x => exact absurd ⟨x, rfl⟩ h2
    | var x | mono x | poly x =>
      cases b with
      | s y => cases h; exact ⟨ha, hb, rfl⟩
      | v y => cases y <;> cases h
      | m y => cases h
  | v x =>
    obtain ⟨-, -, h⟩ := Go.bind_eq_ok.mp h
    obtain ⟨-, -, h⟩ := Go.bind_eq_ok.mp h
    obtain ⟨-, -, h⟩ := Go.bind_eq_ok.mp h
    cases b with
    | s y =>
      cases y with
      | k y => exact absurd ⟨y, rfl⟩ h1
      | _ => cases x <;> cases h
    | v y => cases x <;> cases y <;> first | (cases h; done) | (cases h; exact ⟨ha, hb, rfl⟩)
    | m y => cases x <;> cases h
  | m x =>
    obtain ⟨-, -, h⟩ := Go.bind_eq_ok.mp h
    obtain ⟨-, -, h⟩ := Go.bind_eq_ok.mp h
    obtain ⟨-, -, h⟩ := Go.bind_eq_ok.mp h
    cases b with
    | s y =>
      cases y with
      | k y => exact absurd ⟨y, rfl⟩ h1
      | _ => cases x <;> cases h
    | v y => cases x <;> cases h
    | m y => cases x <;> cases y <;> first | (cases h; done) | (cases h; exact ⟨ha, hb, rfl⟩)

private theorem holdsE_minus (hr : 0 < r) (hc : 0 < c) (ha : HoldsE U A M a) (hb : HoldsE U B N b)
    (he : a.minus b = .ok e) : HoldsE U (fun i j => (A i j).add ((B i j).mul .const)) (M - N) e :=
  holdsE_of (Expr.minus_post mulSem_holds negOne_holds hr hc ha hb) (fun i j => Entry.make_sound _ _)
    (fun i j => ⟨_, Entry.leq_add Entry.leq_refl (Entry.leq_mul Entry.leq_refl Entry.leq_refl), by
      simp [extM_fin, ← sub_eq_add_neg]⟩) he

/-- An array of numbers stands for some matrix of numbers. -/
private theorem holdsE_consts {e : Expr R} (h : e.Shape r c) (hk : ∀ row ∈ e.grid, ∀ x ∈ row, ∃ t, x = .k t) :
    ∃ T : Matrix (Fin r) (Fin c) R, HoldsE U (fun _ _ => .const) (T.map C) e := by
  have h1 : EArr r c (fun i j x => e.entry i j = some x ∧ ∃ t, x = .k t) e := (EArr.self h).and_all hk
  have h2 : ∀ (i : Fin r) (j : Fin c), ∃ t, e.entry i j = some (.k t) := fun i j => by
    obtain ⟨x, hx, -, t, rfl⟩ := h1.get i.2 j.2
    exact ⟨t, hx⟩
  choose T hT using h2
  refine ⟨Matrix.of T, (EArr.self h).mono fun i j x hi hj hx => ?_⟩
  have := hT ⟨i, hi⟩ ⟨j, hj⟩
  rw [hx, Option.some.injEq] at this
  subst this
  rw [extM_of _ hi hj]
  exact Entry.holds_const _

end Steps

section Solutions

variable [Field R] [LinearOrder R] [IsStrictOrderedRing R] {U : Var R → Prop} {r c : ℕ}
  {M N : Matrix (Fin r) (Fin c) (MvPolynomial ℕ R)} {A B : ℕ → ℕ → Entry}

/-- What is known of a constraint whose entries ask for `P`. -/
def HoldsCon (U : Var R → Prop) (E : ℕ → ℕ → Entry × Entry) (P : Fin r → Fin c → (ℕ → R) → Prop) (k : Con R) : Prop :=
  ∃ M N : Matrix (Fin r) (Fin c) (MvPolynomial ℕ R), HoldsE U (fun i j => (E i j).1) M k.left ∧
    HoldsE U (fun i j => (E i j).2) N k.right ∧ k.sense.OK ∧
    ∀ i j ρ, k.sense.Holds (eval ρ (M i j)) (eval ρ (N i j)) ↔ P i j ρ

/-- Both sides without their constants, and the constants. -/
private abbrev simplEntry (A B : Entry) : Entry × Entry :=
  ((A.add (Entry.const.mul .const)).add ((B.add (Entry.const.mul .const)).mul .const),
    Entry.const.add (Entry.const.mul .const))

private theorem holds_moved (s : Sense) (f g t u : R) : s.Holds (f - t - (g - u)) (u - t) ↔ s.Holds f g := by
  rw [show f - t - (g - u) = f - g + (u - t) by ring]
  exact Sense.holds_shift _ _ _ _

private theorem simplify_steps' {x y l n nl nr ls rs : Expr R} (hr : 0 < r) (hc : 0 < c) (hx : HoldsE U A M x)
    (hy : HoldsE U B N y) (hls : ls.Shape r c) (kls : ∀ row ∈ ls.grid, ∀ x ∈ row, ∃ t, x = .k t) (hrs : rs.Shape r c)
    (krs : ∀ row ∈ rs.grid, ∀ x ∈ row, ∃ t, x = .k t) (h1 : x.minus ls = .ok l) (h2 : y.minus rs = .ok n)
    (h3 : l.minus n = .ok nl) (h4 : rs.minus ls = .ok nr) :
    ∃ M' N' : Matrix (Fin r) (Fin c) (MvPolynomial ℕ R),
      HoldsE U (fun i j => (simplEntry (A i j) (B i j)).1) M' nl ∧
      HoldsE U (fun i j => (simplEntry (A i j) (B i j)).2) N' nr ∧
      ∀ (s : Sense) i j ρ, s.Holds (eval ρ (M' i j)) (eval ρ (N' i j)) ↔
        s.Holds (eval ρ (M i j)) (eval ρ (N i j)) := by
  obtain ⟨T, hT⟩ := holdsE_consts (U := U) hls kls
  obtain ⟨V, hV⟩ := holdsE_consts (U := U) hrs krs
  refine ⟨_, _, holdsE_minus hr hc (holdsE_minus hr hc hx hT h1) (holdsE_minus hr hc hy hV h2) h3,
    holdsE_minus hr hc hV hT h4, fun s i j ρ => ?_⟩
  simp only [Matrix.sub_apply, Matrix.map_apply, map_sub, eval_C]
  exact holds_moved _ _ _ _ _

private theorem scalar_simplify {a b : Entry} {f g : MvPolynomial ℕ R} {k k' : SCon R} (hl : (a.tagged f).Holds U k.lhs)
    (hr : (b.tagged g).Holds U k.rhs) (h : k.simplify = .ok k') :
    ∃ t, k'.sense = k.sense ∧ k'.rhs = .k t ∧ ((simplEntry a b).1.tagged (f - g + C t)).Holds U k'.lhs := by
  have hok : (simplEntry a b).1.ok = true → a.ok = true ∧ b.ok = true := fun h => by
    have h1 := Bool.and_eq_true _ _ ▸ Entry.make_ok h
    have h2 := Bool.and_eq_true _ _ ▸ Entry.make_ok h1.1
    have h3 := Bool.and_eq_true _ _ ▸ Entry.make_ok h1.2
    have h4 := Bool.and_eq_true _ _ ▸ Entry.make_ok h3.1
    exact ⟨h2.1, h4.1⟩
  have hs : (simplEntry a b).1.Sound := Entry.make_sound _ _
  have s1 : ∀ {f' : MvPolynomial ℕ R} {x : Scalar R}, DenW {w | w ∈ a.ws} f' x → DenW {w | w ∈ (simplEntry a b).1.ws} f' x :=
    fun h => SemW.weaken h fun w hw => List.mem_dedup.mpr (List.mem_append_left _
      (List.mem_dedup.mpr (List.mem_append_left _ hw)))
  have s2 : ∀ {f' : MvPolynomial ℕ R} {x : Scalar R}, DenW {w | w ∈ b.ws} f' x → DenW {w | w ∈ (simplEntry a b).1.ws} f' x :=
    fun h => by
      have h1 : DenW {w | w ∈ (b.add (Entry.const.mul .const)).ws} _ _ :=
        SemW.weaken h fun w hw => List.mem_dedup.mpr (List.mem_append_left _ hw)
      have h2 := SemW.left (Shape.both_prod (b.add (Entry.const.mul .const)).ws Entry.const.ws).1 h1
      exact SemW.weaken h2 fun w hw => List.mem_dedup.mpr (List.mem_append_right _ hw)
  have main : (do
      let d ← k.lhs.minus k.rhs
      let l ← d.plusF64 (← k.rhs.constant)
      return (⟨l, .k (← k.rhs.constant), k.sense⟩ : SCon R)) = .ok k' →
      ∃ t, k'.sense = k.sense ∧ k'.rhs = .k t ∧ ((simplEntry a b).1.tagged (f - g + C t)).Holds U k'.lhs := by
    intro h
    obtain ⟨d, h1, h⟩ := Go.bind_eq_ok.mp h
    obtain ⟨t, h2, h⟩ := Go.bind_eq_ok.mp h
    obtain ⟨l, h3, h⟩ := Go.bind_eq_ok.mp h
    rw [h2] at h
    cases h
    obtain ⟨c1, -, m1⟩ := good_iff.mp hl.1
    obtain ⟨c2, -, m2⟩ := good_iff.mp hr.1
    obtain ⟨d', e1, e2, e3⟩ := minus_total c1 c2
    rw [h1, Except.ok.injEq] at e1
    subst e1
    have gd : Good U Set.univ d := good_mentions e2 d.termsIn_univ fun w hw => (e3 w hw).elim (m1 w) (m2 w)
    refine ⟨t, rfl, rfl, ?_, fun ho => ⟨hs ho, ?_⟩⟩
    · obtain ⟨l', e4, e5⟩ := Scalar.plusF64_good gd t
      rw [h3, Except.ok.injEq] at e4
      exact e4 ▸ e5
    · obtain ⟨o1, o2⟩ := hok ho
      obtain ⟨d', e1, e2⟩ := Scalar.minus_written (hs ho) (s1 (hl.2 o1).2) (s2 (hr.2 o2).2)
      rw [h1, Except.ok.injEq] at e1
      subst e1
      obtain ⟨l', e4, e5⟩ := Scalar.plusF64_written (hs ho) e2 t
      rw [h3, Except.ok.injEq] at e4
      exact e4 ▸ e5
  unfold SCon.simplify at h
  cases hk : k.rhs with
  | k t =>
    rw [hk] at h hr
    cases h
    refine ⟨t, rfl, hk, hl.1, fun ho => ⟨hs ho, ?_⟩⟩
    obtain ⟨o1, o2⟩ := hok ho
    have := (hr.2 o2).2.den
    rw [Scalar.den_k] at this
    have e : f - g + C t = f := by
      rw [this]
      exact sub_add_cancel f g
    show DenW _ (f - g + C t) _
    rw [e]
    exact s1 (hl.2 o1).2
  | var v | mono m | poly p =>
    rw [hk] at h main
    exact main h

private theorem simplify_holds {E : ℕ → ℕ → Entry × Entry} {P : Fin r → Fin c → (ℕ → R) → Prop} {k k' : Con R}
    (hr : 0 < r) (hc : 0 < c) (hk : HoldsCon U E P k) (h : k.simplify = .ok k') :
    HoldsCon U (fun i j => simplEntry (E i j).1 (E i j).2) P k' := by
  obtain ⟨M, N, hM, hN, hs, hP⟩ := hk
  cases k with
  | s k =>
    obtain ⟨x, h1, h⟩ := Go.bind_eq_ok.mp h
    cases h
    obtain ⟨rfl, rfl⟩ := earr_s_dims hM
    obtain ⟨t, e1, e2, e3⟩ := scalar_simplify (holdsE_s.mp hM) (holdsE_s.mp hN) h1
    refine ⟨Matrix.of fun _ _ => M 0 0 - N 0 0 + C t, Matrix.of fun _ _ => C t, ?_, ?_, ?_, fun i j ρ => ?_⟩
    · refine holdsE_s.mpr ?_
      rw [Matrix.of_apply]
      exact e3
    · show HoldsE U _ _ (.s x.rhs)
      rw [e2]
      exact holdsE_s.mpr ⟨trivial, fun ho => ⟨Entry.make_sound _ _ ho, denW_k t⟩⟩
    · show x.sense.OK
      rw [e1]
      exact hs
    · obtain rfl : i = 0 := Subsingleton.elim _ _
      obtain rfl : j = 0 := Subsingleton.elim _ _
      rw [← hP]
      show x.sense.Holds _ _ ↔ k.sense.Holds _ _
      rw [e1]
      simp only [Matrix.of_apply, map_add, map_sub, eval_C]
      exact Sense.holds_shift _ _ _ _
  | v k =>
    obtain ⟨x, h1, h⟩ := Go.bind_eq_ok.mp h
    cases h
    obtain rfl : c = 1 := earr_v_cols hr hM
    unfold VCon.simplify at h1
    obtain ⟨_, -, h⟩ := Go.bind_eq_ok.mp h1
    obtain ⟨ls, hls, h⟩ := Go.bind_eq_ok.mp h
    obtain ⟨l, h1, h⟩ := Go.bind_eq_ok.mp h
    obtain ⟨rs, hrs, h⟩ := Go.bind_eq_ok.mp h
    obtain ⟨n, h2, h⟩ := Go.bind_eq_ok.mp h
    obtain ⟨nl, h3, h⟩ := Go.bind_eq_ok.mp h
    rw [hls, hrs, Go.ok_bind, Go.ok_bind] at h
    obtain ⟨nr, h4, h⟩ := Go.bind_eq_ok.mp h
    have hk' : ∀ (g : List R), ∀ row ∈ (Expr.v (.k g)).grid, ∀ x ∈ row, ∃ t, x = .k t := by
      intro g row hrow x hx
      obtain ⟨y, hy, rfl⟩ := List.mem_map.mp hrow
      obtain ⟨t, -, rfl⟩ := List.mem_map.mp hy
      rw [List.mem_singleton] at hx
      exact ⟨t, hx⟩
    obtain ⟨M', N', e1, e2, e3⟩ := simplify_steps' hr hc hM hN
      (vec_constant_shape (HoldsE.canon hM) (EArr.shape hM) hls) (hk' ls)
      (vec_constant_shape (HoldsE.canon hN) (EArr.shape hN) hrs) (hk' rs) h1 h2 h3 h4
    cases nl with
    | v nl =>
      cases nr with
      | v nr =>
        cases h
        exact ⟨M', N', e1, e2, hs, fun i j ρ => (e3 _ i j ρ).trans (hP i j ρ)⟩
      | _ => cases h
    | _ => cases h
  | m k =>
    obtain ⟨x, h1, h⟩ := Go.bind_eq_ok.mp h
    cases h
    unfold MCon.simplify at h1
    obtain ⟨ls, hls, h⟩ := Go.bind_eq_ok.mp h1
    obtain ⟨l, h1, h⟩ := Go.bind_eq_ok.mp h
    obtain ⟨rs, hrs, h⟩ := Go.bind_eq_ok.mp h
    obtain ⟨n, h2, h⟩ := Go.bind_eq_ok.mp h
    obtain ⟨nl, h3, h⟩ := Go.bind_eq_ok.mp h
    rw [hls, hrs, Go.ok_bind, Go.ok_bind] at h
    obtain ⟨nr, h4, h⟩ := Go.bind_eq_ok.mp h
    have hk' : ∀ (g : List (List R)), ∀ row ∈ (Expr.m (.k g)).grid, ∀ x ∈ row, ∃ t, x = .k t := by
      intro g row hrow x hx
      obtain ⟨row', -, rfl⟩ := List.mem_map.mp hrow
      obtain ⟨t, -, rfl⟩ := List.mem_map.mp hx
      exact ⟨t, rfl⟩
    obtain ⟨M', N', e1, e2, e3⟩ := simplify_steps' hr hc hM hN
      (mat_constant_shape hr hc (HoldsE.canon hM) (EArr.shape hM) hls) (hk' ls)
      (mat_constant_shape hr hc (HoldsE.canon hN) (EArr.shape hN) hrs) (hk' rs) h1 h2 h3 h4
    cases nl with
    | m nl =>
      cases nr with
      | m nr =>
        cases h
        exact ⟨M', N', e1, e2, hs, fun i j ρ => (e3 _ i j ρ).trans (hP i j ρ)⟩
      | _ => cases h
    | _ => cases h

omit [IsStrictOrderedRing R] in
private theorem con_substitute {k k' : Con R} {v : Var R} {s : Scalar R} (h : k.substitute v s = .ok k') :
    k.left.substitute v s = .ok k'.left ∧ k.right.substitute v s = .ok k'.right ∧ k'.sense = k.sense := by
  cases k with
  | s k | v k | m k =>
    obtain ⟨x, h1, h⟩ := Go.bind_eq_ok.mp h
    cases h
    obtain ⟨-, -, h⟩ := Go.bind_eq_ok.mp h1
    obtain ⟨l, h2, h⟩ := Go.bind_eq_ok.mp h
    obtain ⟨n, h3, h⟩ := Go.bind_eq_ok.mp h
    cases h
    simp [Con.left, Con.right, Con.sense, Expr.substitute, h2, h3, Go.pure_eq, Go.ok_bind]

private theorem scalar_scale {E : ℕ → ℕ → Entry × Entry} {P : Fin 1 → Fin 1 → (ℕ → R) → Prop} {k k' : SCon R} {f : R}
    (hf : f ≠ 0) (hk : HoldsCon U E P (.s k)) (h : k.scaleBy f = .ok k') : HoldsCon U E P (.s k') := by
  obtain ⟨M, N, hM, hN, hs, hP⟩ := hk
  obtain ⟨-, -, h⟩ := Go.bind_eq_ok.mp h
  obtain ⟨l, h1, h⟩ := Go.bind_eq_ok.mp h
  obtain ⟨n, h2, h⟩ := Go.bind_eq_ok.mp h
  cases h
  have key : ∀ {a : Entry} {g : MvPolynomial ℕ R} {x y : Scalar R}, (a.tagged g).Holds U x → x.mulF64 f = .ok y →
      (a.tagged (g * C f)).Holds U y := by
    intro a g x y hx hy
    refine ⟨?_, fun ho => ⟨(hx.2 ho).1, ?_⟩⟩
    · obtain ⟨y', e1, e2⟩ := Scalar.mulF64_good hx.1 f
      rw [hy, Except.ok.injEq] at e1
      exact e1 ▸ e2
    · obtain ⟨y', e1, e2⟩ := Scalar.mulF64_written (hx.2 ho).1 (hx.2 ho).2 f
      rw [hy, Except.ok.injEq] at e1
      exact e1 ▸ e2
  refine ⟨Matrix.of fun _ _ => M 0 0 * C f, Matrix.of fun _ _ => N 0 0 * C f, holdsE_s.mpr ?_,
    holdsE_s.mpr ?_, flipSense_ok hs f, fun i j ρ => ?_⟩
  · rw [Matrix.of_apply]
    exact key (holdsE_s.mp hM) h1
  · rw [Matrix.of_apply]
    exact key (holdsE_s.mp hN) h2
  obtain rfl : i = 0 := Subsingleton.elim _ _
  obtain rfl : j = 0 := Subsingleton.elim _ _
  rw [← hP]
  simp only [Matrix.of_apply, map_mul, eval_C]
  exact flipSense_holds _ hf _ _

theorem AConProg.sound (p : AConProg R r c) {k : Con R}
    (hU : ∀ v, U v → v.OK) (hc : ∀ v w, U v → U w → v.id = w.id → v = w) (hp : ∀ v, p.Names v → U v)
    (hreg : p.Regular) (he : p.run = .ok k) : HoldsCon U p.entries p.HoldsAt k := by
  induction p generalizing k with
  | compare a b s =>
    obtain ⟨x, h1, he⟩ := Go.bind_eq_ok.mp he
    obtain ⟨y, h2, he⟩ := Go.bind_eq_ok.mp he
    obtain ⟨e1, e2, e3⟩ := compare_holds a.pos.1 a.pos.2 (a.sound hU hc (fun v hv => hp v (.inl hv)) hreg.1 h1)
      (b.sound hU hc (fun v hv => hp v (.inr hv)) hreg.2.1 h2) he
    exact ⟨_, _, e1, e2, e3 ▸ hreg.2.2, fun i j ρ => by rw [e3]; rfl⟩
  | compareK a x s =>
    obtain ⟨y, h1, he⟩ := Go.bind_eq_ok.mp he
    have ha := a.sound hU hc hp hreg.1 h1
    obtain ⟨e1, e2, e3, e4⟩ := compareK_holds a.pos.1 a.pos.2 ha he
    refine ⟨_, _, e1 ▸ ha, holdsE_all e2 e3, e4 ▸ hreg.2, fun i j ρ => ?_⟩
    rw [e4, Matrix.of_apply, eval_C]
    rfl
  | kCompare x a s =>
    obtain ⟨y, h1, he⟩ := Go.bind_eq_ok.mp he
    have ha := a.sound hU hc hp hreg.1 h1
    obtain ⟨e1, e2, e3, e4⟩ := kCompare_holds a.pos.1 ha he
    refine ⟨_, _, holdsE_all e2 e3, e1 ▸ ha, e4 ▸ hreg.2, fun i j ρ => ?_⟩
    rw [e4, Matrix.of_apply, eval_C]
    rfl
  | simplify p ih =>
    obtain ⟨y, h1, he⟩ := Go.bind_eq_ok.mp he
    exact simplify_holds p.pos.1 p.pos.2 (ih hp hreg h1) he
  | subst p v s ih =>
    obtain ⟨x, h1, he⟩ := Go.bind_eq_ok.mp he
    obtain ⟨y, h2, he⟩ := Go.bind_eq_ok.mp he
    obtain ⟨t, h3, he⟩ := Go.bind_eq_ok.mp he
    obtain ⟨M, N, hM, hN, hs, hP⟩ := ih (fun w hw => hp w (.inl hw)) hreg.1 h1
    have hy := s.sound hU hc (fun w hw => hp w (.inr (.inr hw))) hreg.2 h2
    have ht : ((s.entry 0 0).tagged (s.meaning 0 0)).Holds U t := by
      cases y with
      | s y => cases h3; exact holdsE_s.mp hy
      | v y => cases h3
      | m y => cases h3
    have hv := hp v (.inr (.inl rfl))
    obtain ⟨e1, e2, e3⟩ := con_substitute he
    refine ⟨_, _, holdsE_subst p.pos.1 hM (fun w hw hi => hc w v hw hv hi) (hU v hv) ht e1,
      holdsE_subst p.pos.1 hN (fun w hw hi => hc w v hw hv hi) (hU v hv) ht e2, e3 ▸ hs, fun i j ρ => ?_⟩
    have key : (fun i => eval ρ (if i = v.id then s.meaning 0 0 else X i)) =
        Function.update ρ v.id (eval ρ (s.meaning 0 0)) := by
      funext i
      by_cases h : i = v.id
      · subst h; simp
      · simp [h]
    rw [e3, Matrix.map_apply, Matrix.map_apply, Verif.eval_bind₁, Verif.eval_bind₁, key]
    exact hP i j _
  | «at» p i j ih =>
    obtain ⟨x, h1, he⟩ := Go.bind_eq_ok.mp he
    obtain ⟨M, N, hM, hN, hs, hP⟩ := ih hp hreg h1
    have fin : ∀ {l n : Scalar R} {s : Sense}, ((p.entries i j).1.tagged (M i j)).Holds U l →
        ((p.entries i j).2.tagged (N i j)).Holds U n → x.sense = s →
        HoldsCon U (AConProg.at p i j).entries (AConProg.at p i j).HoldsAt (.s ⟨l, n, s⟩) := fun hl hn hx =>
      ⟨Matrix.of fun _ _ => M i j, Matrix.of fun _ _ => N i j, holdsE_s.mpr hl, holdsE_s.mpr hn, hx ▸ hs,
        fun _ _ ρ => hx ▸ hP i j ρ⟩
    cases x with
    | s x => cases he
    | v x =>
      obtain ⟨y, h2, he⟩ := Go.bind_eq_ok.mp he
      cases he
      unfold VCon.atVec at h2
      obtain ⟨_, -, h2⟩ := Go.bind_eq_ok.mp h2
      obtain ⟨d, -, h2⟩ := Go.bind_eq_ok.mp h2
      obtain ⟨_, -, h2⟩ := Go.bind_eq_ok.mp h2
      obtain ⟨l, h3, h2⟩ := Go.bind_eq_ok.mp h2
      obtain ⟨n, h4, h2⟩ := Go.bind_eq_ok.mp h2
      cases h2
      have hcol := earr_v_cols p.pos.1 hM
      subst hcol
      have hj0 : j = 0 := Subsingleton.elim _ _
      subst hj0
      obtain ⟨l', e1, e2⟩ := VArr.atVec (earr_v_iff.mp hM) (fun _ _ h => h.1.check) i.2
      obtain ⟨n', e3, e4⟩ := VArr.atVec (earr_v_iff.mp hN) (fun _ _ h => h.1.check) i.2
      rw [extM_of _ i.2 one_pos] at e2 e4
      rw [h3, Except.ok.injEq] at e1
      rw [h4, Except.ok.injEq] at e3
      exact fin (e1 ▸ e2) (e3 ▸ e4) rfl
    | m x =>
      obtain ⟨y, h2, he⟩ := Go.bind_eq_ok.mp he
      cases he
      unfold MCon.at at h2
      obtain ⟨_, -, h2⟩ := Go.bind_eq_ok.mp h2
      obtain ⟨d, -, h2⟩ := Go.bind_eq_ok.mp h2
      obtain ⟨_, -, h2⟩ := Go.bind_eq_ok.mp h2
      obtain ⟨l, h3, h2⟩ := Go.bind_eq_ok.mp h2
      obtain ⟨n, h4, h2⟩ := Go.bind_eq_ok.mp h2
      cases h2
      obtain ⟨l', e1, e2⟩ := EArr.at hM (fun _ _ _ h => h.1.check) i.2 j.2
      obtain ⟨n', e3, e4⟩ := EArr.at hN (fun _ _ _ h => h.1.check) i.2 j.2
      rw [extM_fin] at e2 e4
      have e1 : x.lhs.at (i : ℕ) (j : ℕ) = .ok l' := e1
      have e3 : x.rhs.at (i : ℕ) (j : ℕ) = .ok n' := e3
      rw [h3, Except.ok.injEq] at e1
      rw [h4, Except.ok.injEq] at e3
      exact fin (e1 ▸ e2) (e3 ▸ e4) rfl
  | scale p f ih =>
    obtain ⟨x, h1, he⟩ := Go.bind_eq_ok.mp he
    have hx := ih hp hreg.1 h1
    cases x with
    | s x =>
      obtain ⟨y, h2, he⟩ := Go.bind_eq_ok.mp he
      cases he
      exact scalar_scale hreg.2 hx h2
    | v x => cases he
    | m x => cases he

variable {p : AConProg R r c} {k : Con R}

/-- C78: whatever the check says, the constraint is well formed, has the size the calls ask for, and names no new
variable. -/
theorem arrayConstraint_wellFormed (hv : p.VarsOK) (hreg : p.Regular) (he : p.run = .ok k) :
    k.Canon ∧ k.left.Shape r c ∧ k.right.Shape r c ∧ ∀ w, k.left.Mentions w ∨ k.right.Mentions w → p.Names w := by
  obtain ⟨M, N, hM, hN, hs, -⟩ := p.sound hv.ok hv.same (fun _ h => h) hreg he
  have key : ∀ {E : ℕ → ℕ → Entry} {M : Matrix (Fin r) (Fin c) (MvPolynomial ℕ R)} {e : Expr R},
      HoldsE p.Names E M e → ∀ w, e.Mentions w → p.Names w := by
    rintro E M e h w ⟨row, hrow, x, hx, hw⟩
    exact (good_iff.mp (h.good row hrow x hx)).2.2 w hw
  exact ⟨⟨hM.canon, hN.canon, ⟨r, c, EArr.shape hM, EArr.shape hN, p.pos⟩, hs⟩, EArr.shape hM, EArr.shape hN,
    fun w hw => hw.elim (key hM w) (key hN w)⟩

/-- C78: an entry for which the check says yes is satisfied exactly where the calls ask for, whatever the check says of the
other entries. -/
theorem arrayConstraint_entry (hv : p.VarsOK) (hreg : p.Regular) (he : p.run = .ok k) (i : Fin r) (j : Fin c)
    (hok : p.okAt i j = true) :
    ∃ x y, k.left.at (i : ℕ) (j : ℕ) = .ok x ∧ k.right.at (i : ℕ) (j : ℕ) = .ok y ∧
      ∀ ρ, k.sense.Holds (x.value ρ) (y.value ρ) ↔ p.HoldsAt i j ρ := by
  obtain ⟨M, N, hM, hN, -, hP⟩ := p.sound hv.ok hv.same (fun _ h => h) hreg he
  unfold AConProg.okAt at hok
  rw [Bool.and_eq_true] at hok
  obtain ⟨x, x1, x2⟩ := EArr.at hM (fun _ _ _ h => h.1.check) i.2 j.2
  obtain ⟨y, y1, y2⟩ := EArr.at hN (fun _ _ _ h => h.1.check) i.2 j.2
  refine ⟨x, y, x1, y1, fun ρ => ?_⟩
  have ex : x.den = M i j := (x2.2 hok.1).2.den.trans (extM_fin _ i j)
  have ey : y.den = N i j := (y2.2 hok.2).2.den.trans (extM_fin _ i j)
  unfold Scalar.value
  rw [ex, ey]
  exact hP i j ρ

/-- C78: if the check says yes and every call returns, the constraint is satisfied exactly where the calls ask for. -/
theorem arrayConstraint_checked (h : p.checked = true) (hv : p.VarsOK) (hreg : p.Regular) (he : p.run = .ok k) (ρ : ℕ → R) :
    k.Sat ρ ↔ ∀ i j, p.HoldsAt i j ρ := by
  obtain ⟨M, N, hM, hN, -, hP⟩ := p.sound hv.ok hv.same (fun _ h => h) hreg he
  have hok : ∀ {i j : ℕ}, i < r → j < c → (p.entries i j).1.ok = true ∧ (p.entries i j).2.ok = true := by
    intro i j hi hj
    unfold AConProg.checked at h
    rw [List.all_eq_true] at h
    have := h i (List.mem_range.mpr hi)
    rw [List.all_eq_true] at this
    exact Bool.and_eq_true _ _ ▸ this j (List.mem_range.mpr hj)
  have dM : k.left.Denotes M := denotes_iff.mpr (EArr.mono hM fun i j s hi hj hs => (hs.2 (hok hi hj).1).2.den)
  have dN : k.right.Denotes N := denotes_iff.mpr (EArr.mono hN fun i j s hi hj hs => (hs.2 (hok hi hj).2).2.den)
  rw [Con.sat_denotes dM dN]
  exact forall_congr' fun i => forall_congr' fun j => hP i j ρ

/-- C78: two checked sequences of calls that ask for the same give constraints with the same solutions. -/
theorem arrayConstraint_equivalent {r' c' : ℕ} {q : AConProg R r' c'} {k' : Con R} (hp : p.checked = true)
    (hq : q.checked = true) (vp : p.VarsOK) (vq : q.VarsOK) (rp : p.Regular) (rq : q.Regular) (ep : p.run = .ok k)
    (eq : q.run = .ok k') {ρ : ℕ → R} (h : (∀ i j, p.HoldsAt i j ρ) ↔ ∀ i j, q.HoldsAt i j ρ) : k.Sat ρ ↔ k'.Sat ρ :=
  (arrayConstraint_checked hp vp rp ep ρ).trans (h.trans (arrayConstraint_checked hq vq rq eq ρ).symm)

/-- The replacements made one after the other. -/
def AConProg.chain {R : Type} {r c : ℕ} (q : AConProg R r c) (l : List (Var R × AProg R 1 1)) : AConProg R r c :=
  l.foldl (fun p kv => .subst p kv.1 kv.2) q

omit [Field R] [LinearOrder R] [IsStrictOrderedRing R] in
private theorem chain_names (q : AConProg R r c) (l : List (Var R × AProg R 1 1)) {w : Var R} (h : q.Names w) :
    (q.chain l).Names w := by
  induction l generalizing q with
  | nil => exact h
  | cons kv l ih => exact ih (.subst q kv.1 kv.2) (.inl h)

omit [IsStrictOrderedRing R] in
private theorem chain_regular {q : AConProg R r c} {l : List (Var R × AProg R 1 1)} (h : (q.chain l).Regular) : q.Regular := by
  induction l generalizing q with
  | nil => exact h
  | cons kv l ih => exact (ih (q := .subst q kv.1 kv.2) h).1

private theorem con_ext {k k' : Con R} (h1 : k.left = k'.left) (h2 : k.right = k'.right) (h3 : k.sense = k'.sense) : k = k' := by
  cases k with
  | s k | v k | m k =>
    cases k' with
    | s k' | v k' | m k' =>
      cases k
      cases k'
      simp_all [Con.left, Con.right, Con.sense]

/-- C78: `SubstituteAccordingTo` on a vector or matrix constraint makes the replacements one after the other, in the order in
which the map is iterated over.  So the theorems above apply to it, for every order. -/
theorem arrayConstraint_substMap {q : AConProg R r c} {l : List (Var R × AProg R 1 1)} {sm : SubMap R} {k' : Con R}
    (hv : (q.chain l).VarsOK) (hreg : (q.chain l).Regular) (hq : q.run = .ok k) (hns : ∀ x, k ≠ .s x)
    (hl : List.Forall₂ (fun kv kw => kv.1 = kw.1 ∧ kv.2.run = .ok (.s kw.2)) l sm) (h : k.substMap sm = .ok k') :
    (q.chain l).run = .ok k' := by
  obtain ⟨h1, h2, h3⟩ : k.left.substMap sm = .ok k'.left ∧ k.right.substMap sm = .ok k'.right ∧ k'.sense = k.sense := by
    cases k with
    | s k => exact absurd rfl (hns k)
    | v k | m k =>
      obtain ⟨x, h1, h⟩ := Go.bind_eq_ok.mp h
      cases h
      obtain ⟨_, -, h⟩ := Go.bind_eq_ok.mp h1
      obtain ⟨l, h2, h⟩ := Go.bind_eq_ok.mp h
      obtain ⟨n, h3, h⟩ := Go.bind_eq_ok.mp h
      cases h
      simp [Con.left, Con.right, Con.sense, Expr.substMap, h2, h3, Go.pure_eq, Go.ok_bind]
  have f1 := Expr.substMap_fold (by cases k <;> simp_all [Con.left]) h1
  have f2 := Expr.substMap_fold (by cases k <;> simp_all [Con.right]) h2
  clear h h1 h2 hns
  induction hl generalizing q k with
  | nil =>
    rw [con_ext (Except.ok.inj f1) (Except.ok.inj f2) h3.symm] at hq
    exact hq
  | @cons kv kw l sm h _ ih =>
    rw [List.foldlM_cons] at f1 f2
    obtain ⟨z1, g1, f1⟩ := Go.bind_eq_ok.mp f1
    obtain ⟨z2, g2, f2⟩ := Go.bind_eq_ok.mp f2
    have hq' : q.VarsOK := ⟨fun v h => hv.ok v (chain_names q (kv :: l) h), fun v w h h' =>
      hv.same v w (chain_names q (kv :: l) h) (chain_names q (kv :: l) h')⟩
    obtain ⟨k1, e1, e2, e3, e4⟩ := Con.substitute_lift
      (arrayConstraint_wellFormed hq' (chain_regular (l := kv :: l) hreg) hq).1 g1 g2
    refine ih (q := .subst q kv.1 kv.2) (k := k1) hv hreg ?_ (h3.trans e4.symm) (e2 ▸ f1) (e3 ▸ f2)
    simp only [AConProg.run, hq, h.2, Go.ok_bind, AProg.asScalar, h.1]
    exact e1

omit [Field R] [LinearOrder R] [IsStrictOrderedRing R] in
/-- C78: the answer of the check does not depend on the numbers. -/
theorem arrayConstraint_coeffs {S : Type} (p : AConProg R r c) (f : R → S) (g : Var R → Var S)
    (hg : ∀ v, (g v).id = v.id) : (p.map f g).entries = p.entries ∧ (p.map f g).checked = p.checked := by
  have E := fun {r c : ℕ} (q : AProg R r c) => (arrayChecked_coeffs q f g hg).1
  have key : (p.map f g).entries = p.entries := by
    induction p with
    | compare a b s => simp only [AConProg.map, AConProg.entries, E]
    | compareK a x s => simp only [AConProg.map, AConProg.entries, E]
    | kCompare x a s => simp only [AConProg.map, AConProg.entries, E]
    | simplify p ih => simp only [AConProg.map, AConProg.entries, ih]
    | subst p v s ih => simp only [AConProg.map, AConProg.entries, ih, E, hg]
    | «at» p i j ih => simp only [AConProg.map, AConProg.entries, ih]
    | scale p k ih => simp only [AConProg.map, AConProg.entries, ih]
  exact ⟨key, by unfold AConProg.checked AConProg.okAt; rw [key]⟩

end Solutions

/-! ## Examples -/

private def wvec : AProg ℚ 2 1 := .vvec ![wx, wy]

/-- `(x + 1, y + 2) >= (x y) (x, y)`, simplified, and `x` replaced by `y + 1`. -/
private def wVecCon : AConProg ℚ 2 1 :=
  .subst (.simplify (.compare (.plus wvec (.kvec ![1, 2])) (.mulS wvec (.scalar (.mul (.var wx) (.var wy)))) .ge)) wx
    (.scalar (.plus (.var wy) (.k 1)))

/-- The same before the replacement. -/
private def wVecCon0 : AConProg ℚ 2 1 :=
  .simplify (.compare (.plus wvec (.kvec ![1, 2])) (.mulS wvec (.scalar (.mul (.var wx) (.var wy)))) .ge)

private theorem wVecCon_names {v : Var ℚ} (h : wVecCon.Names v) : v = wx ∨ v = wy := by
  rcases h with ((⟨i, rfl⟩ | h) | (⟨i, rfl⟩ | h | h)) | h | h | h
  · fin_cases i <;> simp
  · exact h.elim
  · fin_cases i <;> simp
  · exact .inl h
  · exact .inr h
  · exact .inl h
  · exact .inr h
  · exact h.elim

private theorem wVecCon_varsOK : wVecCon.VarsOK where
  ok v hv := by rcases wVecCon_names hv with rfl | rfl <;> exact wv_ok _
  same v w hv hw := by
    rcases wVecCon_names hv with rfl | rfl <;> rcases wVecCon_names hw with rfl | rfl <;> decide +kernel

/-- A cubic vector constraint passes the check, every call returns, and its solutions are those one expects; so are those
of its second entry, scaled by `-2`. -/
example : (∃ k, wVecCon.run = .ok k ∧ ∀ ρ, k.Sat ρ ↔
      (ρ 1 + 1) * ((ρ 1 + 1) * ρ 1) ≤ ρ 1 + 1 + 1 ∧ ρ 1 * ((ρ 1 + 1) * ρ 1) ≤ ρ 1 + 2) ∧
    ∃ k, (AConProg.scale (.at wVecCon 1 0) (-2)).run = .ok k ∧ ∀ ρ, k.Sat ρ ↔ ρ 1 * ((ρ 1 + 1) * ρ 1) ≤ ρ 1 + 2 := by
  have ret : ∀ {x : Go (Con ℚ)}, x.isOk = true → ∃ k, x = .ok k := by
    intro x h
    cases x with
    | ok k => exact ⟨k, rfl⟩
    | error _ => cases h
  have hreg : wVecCon.Regular := by
    simp [wVecCon, wvec, AConProg.Regular, AProg.Regular, Prog.Keys, Sense.OK]
  constructor
  · obtain ⟨k, hk⟩ := ret (x := wVecCon.run) (by decide +kernel)
    refine ⟨k, hk, fun ρ => (arrayConstraint_checked (by decide +kernel) wVecCon_varsOK hreg hk ρ).trans ?_⟩
    simp [wVecCon, wvec, AConProg.HoldsAt, AProg.meaning, Prog.meaning, Sense.Holds, wv, Function.update, Fin.forall_fin_two]
  · obtain ⟨k, hk⟩ := ret (x := (AConProg.scale (.at wVecCon 1 0) (-2)).run) (by decide +kernel)
    refine ⟨k, hk, fun ρ => (arrayConstraint_checked (p := .scale (.at wVecCon 1 0) (-2))
      (by decide +kernel) ⟨by simpa [AConProg.Names] using wVecCon_varsOK.ok,
        by simpa [AConProg.Names] using wVecCon_varsOK.same⟩ (by simpa [AConProg.Regular] using hreg) hk ρ).trans ?_⟩
    simp [wVecCon, wvec, AConProg.HoldsAt, AProg.meaning, Prog.meaning, Sense.Holds, wv, Function.update]

/-- The same replacement by `SubstituteAccordingTo`. -/
example : ∃ k k', wVecCon0.run = .ok k ∧ k.substMap [(wx, .poly ⟨[wm0 1, wm1 1 1 1]⟩)] = .ok k' ∧ ∀ ρ, k'.Sat ρ ↔
    (ρ 1 + 1) * ((ρ 1 + 1) * ρ 1) ≤ ρ 1 + 1 + 1 ∧ ρ 1 * ((ρ 1 + 1) * ρ 1) ≤ ρ 1 + 2 := by
  have hreg : wVecCon.Regular := by
    simp [wVecCon, wvec, AConProg.Regular, AProg.Regular, Prog.Keys, Sense.OK]
  obtain ⟨k', h⟩ : ∃ k', (do (← wVecCon0.run).substMap [(wx, .poly ⟨[wm0 1, wm1 1 1 1]⟩)] : Go (Con ℚ)) = .ok k' := by
    have h : (do (← wVecCon0.run).substMap [(wx, .poly ⟨[wm0 1, wm1 1 1 1]⟩)] : Go (Con ℚ)).isOk = true := by decide +kernel
    generalize (do (← wVecCon0.run).substMap [(wx, .poly ⟨[wm0 1, wm1 1 1 1]⟩)] : Go (Con ℚ)) = x at h
    cases x with
    | ok k => exact ⟨k, rfl⟩
    | error _ => cases h
  obtain ⟨k, h1, h2⟩ := Go.bind_eq_ok.mp h
  have hs := (arrayConstraint_wellFormed (p := wVecCon0) ⟨fun v hv => wVecCon_varsOK.ok v (.inl hv),
    fun v w hv hw => wVecCon_varsOK.same v w (.inl hv) (.inl hw)⟩ hreg.1 h1).2.1
  have hrun : (AProg.scalar (.plus (.var wy) (.k 1))).run = .ok (.s (.poly ⟨[wm0 (1 : ℚ), wm1 1 1 1]⟩)) := by
    have : (Prog.plus (.var wy) (.k 1)).run = .ok (.poly ⟨[wm0 (1 : ℚ), wm1 1 1 1]⟩) := by decide +kernel
    simp only [AProg.run, this]
    rfl
  have hr := arrayConstraint_substMap (q := wVecCon0) (l := [(wx, .scalar (.plus (.var wy) (.k 1)))]) wVecCon_varsOK hreg h1
    (by rintro x rfl; exact absurd hs.1 (by simp [Con.left, Expr.grid])) (.cons ⟨rfl, hrun⟩ .nil) h2
  refine ⟨k, k', h1, h2, fun ρ => (arrayConstraint_checked (p := wVecCon) (by decide +kernel) wVecCon_varsOK hreg hr ρ).trans
    ?_⟩
  simp [wVecCon, wvec, AConProg.HoldsAt, AProg.meaning, Prog.meaning, Sense.Holds, wv, Function.update, Fin.forall_fin_two]

/-- The square of a matrix compared with a number passes; the third power does not, because its entries collect `x^2 y` and
`y^2 x`. -/
example : (AConProg.simplify (.compareK (R := ℚ) (.pow (.vmat !![wx, wy; wy, wx]) 2) 3 .ge)).checked = true ∧
    (AConProg.simplify (.compareK (R := ℚ) (.pow (.vmat !![wx, wy; wy, wx]) 2) 3 .ge)).run.isOk = true ∧
    (AConProg.simplify (.compareK (R := ℚ) (.pow (.vmat !![wx, wy; wy, wx]) 3) 3 .ge)).checked = false := by
  decide +kernel

end Verif
