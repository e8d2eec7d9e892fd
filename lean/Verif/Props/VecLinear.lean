import Mathlib.Tactic.LinearCombination
import Verif.Props.ArrayInfo
import Verif.Props.ConstrNeg

/-!
# C34, C36, C37, C47 for vector constraints
-/

set_option linter.unusedSectionVars false

namespace Verif

open MvPolynomial

variable {R : Type} [Field R] [LinearOrder R] {n : ℕ}

/-! ## Entries that denote `f` and write no low term twice -/

def GoodLow (P : Var R → Prop) (D : Set (ℕ →₀ ℕ)) (f : MvPolynomial ℕ R) (x : Scalar R) : Prop :=
  GoodDen P D f x ∧ x.LowDistinct

variable {P : Var R → Prop} {D : Set (ℕ →₀ ℕ)}

theorem toPoly_low {a : Scalar R} (h : a.LowDistinct) : (Scalar.poly a.toPoly).LowDistinct := by
  cases a with
  | k c => simp [Scalar.LowDistinct, Scalar.toPoly, kToPoly]
  | var v => simp [Scalar.LowDistinct, Scalar.toPoly, Var.toPoly]
  | mono m => simp [Scalar.LowDistinct, Scalar.toPoly, Mono.toPoly]
  | poly p => exact h

theorem GoodDen.canon {f : MvPolynomial ℕ R} {x : Scalar R} (h : GoodDen P D f x) : x.Canon :=
  (good_iff.mp h.1).1

theorem stable_goodLow (hD : RearrFree D) (f : MvPolynomial ℕ R) : Stable (GoodLow P D f) where
  check _ h := h.1.1.check
  poly _ h := ⟨(stable_goodDen hD f).poly _ h.1, toPoly_low h.2⟩
  mono _ _ h hm := ⟨(stable_goodDen hD f).mono _ _ h.1 hm, trivial⟩
  simp a h := by
    obtain ⟨b, h1, h2⟩ := (stable_goodDen hD f).simp a h.1
    exact ⟨b, h1, h2, (Scalar.asSimplified_simple h.1.canon h1).1⟩

theorem goodLow_plus (hD : RearrFree D) {f g : MvPolynomial ℕ R} {x y : Scalar R}
    (hx : GoodDen P D f x) (hy : GoodDen P D g y) : Go.Ok (x.plus y) (GoodLow P D (f + g)) := by
  obtain ⟨b, h1, h2⟩ := goodDen_plus hD hx hy
  exact ⟨b, h1, h2, (Scalar.plus_simple hx.canon hy.canon h1).1⟩

/-- `Minus` of two vectors of at least two entries is a vector. -/
theorem vec_minus_low {a b : Vec R} (hD : RearrFree D) (hn : 2 ≤ n) {f g : ℕ → MvPolynomial ℕ R}
    (ha : VArr n (fun i => GoodDen P D (f i)) a) (hb : VArr n (fun i => GoodDen P D (g i)) b) :
    ∃ d, (Expr.v a).minus (.v b) = .ok (.v d) ∧
      VArr n (fun i => GoodLow P D (f i - g i)) d := by
  have h := Vec.minus_vec_ok (Q := fun i => GoodLow P D (f i + -g i)) (by omega) ha
    (fun _ _ => goodDen_check) hb (fun _ _ => goodDen_check) (fun _ _ => stable_goodDen hD _)
    (fun _ _ => stable_goodLow hD _) (fun _ _ _ hx => goodDen_neg hD hx)
    (fun _ _ _ _ hx hy => goodLow_plus hD hx hy)
  obtain ⟨e, h1, h2, -, h3⟩ := h
  obtain ⟨d, rfl⟩ := h3 (by omega)
  refine ⟨d, h1, ?_⟩
  simp only [sub_eq_add_neg]
  exact earr_v_iff.mp h2

/-! ## Linear vector constraints -/

/-- `IsLinear` of a constraint of any kind: all written terms have degree at most one. -/
theorem isLinear_array {c : Con R} (hc : c.Canon) :
    ∃ b, c.isLinear = .ok b ∧ (b = true ↔ c.left.TermsIn (degLE 1) ∧ c.right.TermsIn (degLE 1)) := by
  obtain ⟨r, k, h1, h2, hr, hk⟩ := hc.shape
  obtain ⟨dl, l1, -, l2⟩ := degree_array hr hk hc.left h1
  obtain ⟨dr, r1, -, r2⟩ := degree_array hr hk hc.right h2
  have hl : c.left.isLinear = .ok (decide (dl ≤ 1)) := by
    unfold Expr.isLinear
    rw [l1]; rfl
  have hr : c.right.isLinear = .ok (decide (dr ≤ 1)) := by
    unfold Expr.isLinear
    rw [r1]; rfl
  refine ⟨decide (dr ≤ 1) && decide (dl ≤ 1), ?_, ?_⟩
  · unfold Con.isLinear
    rw [hr, hl, Go.ok_bind]
    cases decide (dr ≤ 1) <;> rfl
  · have h2' := l2 1
    have h4' := r2 1
    rw [Nat.cast_one] at h2' h4'
    rw [Bool.and_eq_true, decide_eq_true_eq, decide_eq_true_eq, h2', h4', and_comm]

theorem requireLinear_array {c : Con R} (hc : c.Canon) :
    (c.left.TermsIn (degLE 1) ∧ c.right.TermsIn (degLE 1) → c.requireLinear = .ok ()) ∧
    (¬ (c.left.TermsIn (degLE 1) ∧ c.right.TermsIn (degLE 1)) →
      c.requireLinear = .error .notLinear) := by
  obtain ⟨b, h1, h2⟩ := isLinear_array hc
  unfold Con.requireLinear
  rw [h1, Go.ok_bind, ← h2]
  cases b
  · exact ⟨(fun h => by simp at h), fun _ => rfl⟩
  · exact ⟨fun _ => rfl, fun h => absurd rfl h⟩

/-- C36, C37: a vector constraint that is not linear is rejected. -/
theorem vec_linear_rejects_nonlinear {c : VCon R} (hc : (Con.v c).Canon)
    (hl : ¬ ((Expr.v c.lhs).TermsIn (degLE 1) ∧ (Expr.v c.rhs).TermsIn (degLE 1)))
    (wrt : List (List (Var R))) :
    c.linearIneq wrt = .error .notLinear ∧ c.linearEq wrt = .error .notLinear := by
  have h1 : c.check = .ok () := hc.check
  have h2 : (Con.v c).requireLinear = .error .notLinear := (requireLinear_array hc).2 hl
  unfold VCon.linearIneq VCon.linearEq
  rw [h1, h2]
  exact ⟨rfl, rfl⟩

/-- C36, C37: linear vector constraints with another sense are rejected. -/
theorem vec_linear_rejects_sense {c : VCon R} (hc : (Con.v c).Canon)
    (hl : (Expr.v c.lhs).TermsIn (degLE 1)) (hl' : (Expr.v c.rhs).TermsIn (degLE 1))
    (wrt : List (List (Var R))) :
    (c.sense ≠ .eq → c.linearEq wrt = .error .equalityRequired) ∧
    (c.sense = .eq → c.linearIneq wrt = .error .inequalityRequired) := by
  have h1 : c.check = .ok () := hc.check
  have h2 : (Con.v c).requireLinear = .ok () := (requireLinear_array hc).1 ⟨hl, hl'⟩
  unfold VCon.linearIneq VCon.linearEq
  rw [h1, h2, Go.ok_bind, Go.ok_bind]
  exact ⟨fun h => by rw [if_pos h]; rfl, fun h => by rw [if_pos h]; rfl⟩

/-- No entry of the sides writes a constant or first-degree term twice. -/
def VCon.LowDistinct (c : VCon R) : Prop :=
  (∀ x ∈ c.lhs.entries, x.LowDistinct) ∧ ∀ x ∈ c.rhs.entries, x.LowDistinct

/-- Row `i` of the left side, as an expression. -/
def VCon.l (c : VCon R) (i : ℕ) : Scalar R := (Expr.v c.lhs).entryD i 0

/-- Row `i` of the right side, as an expression. -/
def VCon.r (c : VCon R) (i : ℕ) : Scalar R := (Expr.v c.rhs).entryD i 0

theorem vec_arr {a : Vec R} (ha : (Expr.v a).Canon) (sa : (Expr.v a).Shape n 1)
    (ta : (Expr.v a).TermsIn D) (hP : ∀ v, (Expr.v a).Mentions v → P v) :
    VArr n (fun i => GoodDen P D ((Expr.v a).entryD i 0).den) a := by
  have h := (((EArr.self sa).and_all ha).and_all ta).and_all
    (q := fun x => ∀ v, x.Mentions v → P v) fun row hrow x hx v hv => hP v ⟨row, hrow, x, hx, hv⟩
  have h' : EArr n 1 (fun i _ => GoodDen P D ((Expr.v a).entryD i 0).den) (.v a) := by
    refine h.mono fun i j x hi hj hx => ?_
    obtain ⟨⟨⟨h1, h2⟩, h3⟩, h4⟩ := hx
    obtain rfl : j = 0 := by omega
    refine ⟨good_iff.mpr ⟨h2, h3, h4⟩, ?_⟩
    unfold Expr.entryD
    rw [h1]
    rfl
  exact earr_v_iff.mp h'

theorem vec_k_arr {l : List R} (hl : l.length = n) (i0 : ℕ → R) (h : l = (List.range n).map i0) :
    VArr n (fun i => GoodDen P D (C (i0 i))) (.k l) := by
  subst h
  refine LArr.map_iff.mpr (LArr.map_iff.mpr ((LArr.range n).mono fun i a hi ha => ?_))
  subst ha
  exact ⟨trivial, rfl⟩

/-- The solutions of a vector constraint, row by row. -/
theorem VCon.sat_iff {c : VCon R} (s1 : (Expr.v c.lhs).Shape n 1) (s2 : (Expr.v c.rhs).Shape n 1)
    (ρ : ℕ → R) : (Con.v c).Sat ρ ↔ ∀ i < n, c.sense.Holds ((c.l i).value ρ) ((c.r i).value ρ) := by
  show List.Forall₂ _ (Expr.v c.lhs).grid (Expr.v c.rhs).grid ↔ _
  rw [s1.grid_eq, s2.grid_eq, List.forall₂_map_left_iff, List.forall₂_map_right_iff,
    List.forall₂_same]
  simp only [List.range_one, List.map_cons, List.map_nil, List.forall₂_cons, List.mem_range,
    List.Forall₂.nil, and_true]
  rfl

/-- The constants of the sides. -/
theorem VCon.constants {c : VCon R} (hn : 0 < n) (hc : (Con.v c).Canon)
    (s1 : (Expr.v c.lhs).Shape n 1) (s2 : (Expr.v c.rhs).Shape n 1) (hd : c.LowDistinct) :
    c.lhs.constant = .ok ((List.range n).map fun i => coeff 0 (c.l i).den) ∧
    c.rhs.constant = .ok ((List.range n).map fun i => coeff 0 (c.r i).den) := by
  rw [vec_constant_partial hn hc.left s1 hd.1, vec_constant_partial hn hc.right s2 hd.2,
    Vec.entries_eq s1, Vec.entries_eq s2, List.map_map, List.map_map]
  exact ⟨rfl, rfl⟩

theorem zipWith_map_range {α β γ : Type} (f : α → β → γ) (g : ℕ → α) (h : ℕ → β) (n : ℕ) :
    List.zipWith f ((List.range n).map g) ((List.range n).map h) =
      (List.range n).map fun i => f (g i) (h i) := by
  rw [List.zipWith_map]
  generalize List.range n = l
  induction l with
  | nil => rfl
  | cons a l ih => simp [ih]

/-- The difference of the sides and the right side used by the linear representations. -/
theorem VCon.linear_parts {c : VCon R} (hn : 2 ≤ n) (hc : (Con.v c).Canon)
    (s1 : (Expr.v c.lhs).Shape n 1) (s2 : (Expr.v c.rhs).Shape n 1) (hd : c.LowDistinct)
    (hl : (Expr.v c.lhs).TermsIn D) (hr : (Expr.v c.rhs).TermsIn D) (hD : RearrFree D)
    (hPl : ∀ v, (Expr.v c.lhs).Mentions v → P v) (hPr : ∀ v, (Expr.v c.rhs).Mentions v → P v) :
    ∃ d, c.newLHS = .ok d ∧
      VArr n (fun i => GoodLow P D ((c.l i).den - ((c.r i).den - C (coeff 0 (c.r i).den)))) d ∧
      c.newRHS = .ok ((List.range n).map fun i => coeff 0 (c.r i).den - coeff 0 (c.l i).den) := by
  obtain ⟨k1, k2⟩ := VCon.constants (by omega) hc s1 s2 hd
  have al : VArr n (fun i => GoodDen P D (c.l i).den) c.lhs := vec_arr hc.left s1 hl hPl
  have ar : VArr n (fun i => GoodDen P D (c.r i).den) c.rhs := vec_arr hc.right s2 hr hPr
  obtain ⟨e, h1, h2⟩ := vec_minus_low hD hn ar
    (vec_k_arr (P := P) (D := D) (n := n) (by simp) (fun i => coeff 0 (c.r i).den) rfl)
  obtain ⟨d, h3, h4⟩ := vec_minus_low hD hn al (h2.mono fun i x _ hx => hx.1)
  refine ⟨d, ?_, h4, ?_⟩
  · unfold VCon.newLHS
    rw [k2, Go.ok_bind, h1, Go.ok_bind]
    show (do return ← (← Expr.minus (.v c.lhs) (.v e)).asVec : Go (Vec R)) = _
    rw [h3]
    rfl
  · unfold VCon.newRHS
    rw [Vec.len_ok hc.left s1 (by omega), Go.ok_bind, if_neg (by omega), k1, k2]
    simp only [Go.ok_bind, List.length_map, List.length_range, ne_eq, not_true_eq_false, or_false,
      if_false, Go.pure_eq, zipWith_map_range, gn_sub]

private theorem sum_zip (ws : List (Var R)) (f : Var R → R) (ρ : ℕ → R) :
    (((ws.map f).zip ws).map (fun aw => aw.1 * ρ aw.2.id)).sum = (ws.map fun w => f w * ρ w.id).sum := by
  induction ws with
  | nil => rfl
  | cons a l ih => simp [ih]

/-- The matrix and vector of the linear representations. -/
theorem VCon.linear_core {c : VCon R} (hn : 2 ≤ n) (hc : (Con.v c).Canon)
    (s1 : (Expr.v c.lhs).Shape n 1) (s2 : (Expr.v c.rhs).Shape n 1) (hd : c.LowDistinct)
    (hl : (Expr.v c.lhs).TermsIn (degLE 1)) (hr : (Expr.v c.rhs).TermsIn (degLE 1))
    {ws : List (Var R)} (hne : ws ≠ []) (hok : ∀ w ∈ ws, w.OK) (hnd : (ws.map (·.id)).Nodup)
    (hcov : ∀ d, c.newLHS = .ok d → ∀ v, (Expr.v d).Mentions v → v.id ∈ ws.map (·.id))
    (hm : ∀ d, c.newLHS = .ok d → ∀ m, Scalar.mono m ∈ d.entries → m.vars ≠ []) :
    ∃ (d : Vec R) (A : ℕ → List R) (b : ℕ → R), c.newLHS = .ok d ∧
      d.linearCoeff [ws] = .ok ((List.range n).map A) ∧ c.newRHS = .ok ((List.range n).map b) ∧
      (∀ i < n, (A i).length = ws.length) ∧
      ∀ i < n, ∀ ρ, (((A i).zip ws).map (fun aw => aw.1 * ρ aw.2.id)).sum - b i =
        (c.l i).value ρ - (c.r i).value ρ := by
  obtain ⟨d, h1, h2, h3⟩ := VCon.linear_parts (P := fun _ => True) hn hc s1 s2 hd hl hr
    rearrFree_degLE_one (fun _ _ => trivial) (fun _ _ => trivial)
  have hE : EArr n 1 (fun i _ => GoodLow (fun _ => True) (degLE 1)
      ((c.l i).den - ((c.r i).den - C (coeff 0 (c.r i).den)))) (.v d) := earr_v_iff.mpr h2
  have hs := hE.shape
  have hcan : (Expr.v d).Canon := hE.all fun i j a ha => ha.1.canon
  have hlow : ∀ x ∈ d.entries, x.LowDistinct := fun x hx =>
    (hE.all (q := fun x => x.LowDistinct) fun i j a ha => ha.2) [x] (by simp [Expr.grid, hx]) x (by simp)
  have hlc := vec_linearCoeff_partial (by omega) hcan hs hlow (hm d h1) hne hok hnd (hcov d h1)
  rw [Vec.entries_eq hs, List.map_map] at hlc
  refine ⟨d, _, _, h1, hlc, h3, by simp, fun i hi ρ => ?_⟩
  obtain ⟨x, hx, hx'⟩ := hE.get hi (j := 0) (by decide)
  have hxd : (Expr.v d).entryD i 0 = x := by
    unfold Expr.entryD
    rw [hx]
    rfl
  have hgood := good_iff.mp hx'.1.1
  have hment : ∀ v, x.Mentions v → v.id ∈ ws.map (·.id) := by
    intro v hv
    refine hcov d h1 v ?_
    obtain ⟨row, e1, e2⟩ : ∃ row, (Expr.v d).grid[i]? = some row ∧ row[0]? = some x := by
      simpa [Expr.entry, Option.bind_eq_some_iff] using hx
    exact ⟨row, List.mem_of_getElem? e1, x, List.mem_of_getElem? e2, hv⟩
  have hval := Scalar.value_affine hgood.1 hgood.2.1 hnd hment ρ
  have hv2 : x.value ρ = (c.l i).value ρ - ((c.r i).value ρ - coeff 0 (c.r i).den) := by
    unfold Scalar.value
    rw [hx'.1.2]
    simp
  have hc0 : coeff 0 x.den = coeff 0 (c.l i).den := by
    rw [hx'.1.2]
    simp
  simp only [Function.comp_def, hxd]
  rw [sum_zip]
  rw [hv2, hc0, List.map_map] at hval
  simp only [Function.comp_def] at hval
  linear_combination -hval

private theorem neg_row (A : List R) (ws : List (Var R)) (ρ : ℕ → R) :
    (((A.map (fun x => (-1 : R) * x)).zip ws).map (fun aw => aw.1 * ρ aw.2.id)).sum =
      - ((A.zip ws).map (fun aw => aw.1 * ρ aw.2.id)).sum := by
  induction A generalizing ws with
  | nil => simp
  | cons a A ih =>
    cases ws with
    | nil => simp
    | cons w ws => simp only [List.map_cons, List.zip_cons_cons, List.sum_cons, ih]; ring

/-- `A x <= b` row by row, with the columns of `A` in the order of `ws`. -/
def RowsLE (A : List (List R)) (ws : List (Var R)) (b : List R) (ρ : ℕ → R) : Prop :=
  List.Forall₂ (fun row x => ((row.zip ws).map fun aw => aw.1 * ρ aw.2.id).sum ≤ x) A b

/-- `A x = b` row by row. -/
def RowsEQ (A : List (List R)) (ws : List (Var R)) (b : List R) (ρ : ℕ → R) : Prop :=
  List.Forall₂ (fun row x => ((row.zip ws).map fun aw => aw.1 * ρ aw.2.id).sum = x) A b

variable [IsStrictOrderedRing R]

/-- C47 for inequalities, with conditions on the difference that the method computes. -/
theorem vec_linearIneq_general {c : VCon R} (hn : 2 ≤ n) (hc : (Con.v c).Canon)
    (s1 : (Expr.v c.lhs).Shape n 1) (s2 : (Expr.v c.rhs).Shape n 1)
    (hs : c.sense = .le ∨ c.sense = .ge) (hd : c.LowDistinct)
    (hl : (Expr.v c.lhs).TermsIn (degLE 1)) (hr : (Expr.v c.rhs).TermsIn (degLE 1))
    {ws : List (Var R)} (hne : ws ≠ []) (hok : ∀ w ∈ ws, w.OK) (hnd : (ws.map (·.id)).Nodup)
    (hcov : ∀ d, c.newLHS = .ok d → ∀ v, (Expr.v d).Mentions v → v.id ∈ ws.map (·.id))
    (hm : ∀ d, c.newLHS = .ok d → ∀ m, Scalar.mono m ∈ d.entries → m.vars ≠ []) :
    ∃ A b, c.linearIneq [ws] = .ok (A, b) ∧ A.length = n ∧ (∀ row ∈ A, row.length = ws.length) ∧
      ∀ ρ, (Con.v c).Sat ρ ↔ RowsLE A ws b ρ := by
  obtain ⟨d, A, b, h1, h2, h3, h4, h5⟩ := VCon.linear_core hn hc s1 s2 hd hl hr hne hok hnd hcov hm
  have k1 : c.check = .ok () := hc.check
  have k2 : (Con.v c).requireLinear = .ok () := (requireLinear_array hc).1 ⟨hl, hr⟩
  have hneq : c.sense ≠ .eq := by rcases hs with h | h <;> rw [h] <;> decide
  have heq : c.linearIneq [ws] = .ok
      ((if c.sense = .ge then ((List.range n).map A).map (fun row => row.map (fun x => (-1) * x))
        else (List.range n).map A),
       (if c.sense = .ge then ((List.range n).map b).map (fun x => (-1) * x)
        else (List.range n).map b)) := by
    unfold VCon.linearIneq
    rw [k1, k2, Go.ok_bind, Go.ok_bind, if_neg hneq, h1]
    simp only [Go.ok_bind, h2, h3, Go.pure_eq, negOne_eq, gn_mul]
  refine ⟨_, _, heq, ?_, ?_, fun ρ => ?_⟩
  · split <;> simp
  · split
    · intro row hrow
      simp only [List.map_map, List.mem_map, List.mem_range, Function.comp] at hrow
      obtain ⟨i, hi, rfl⟩ := hrow
      simp [h4 i hi]
    · intro row hrow
      simp only [List.mem_map, List.mem_range] at hrow
      obtain ⟨i, hi, rfl⟩ := hrow
      exact h4 i hi
  · rw [VCon.sat_iff s1 s2]
    unfold RowsLE
    rcases hs with hs | hs
    · rw [hs, if_neg (by decide), if_neg (by decide), List.forall₂_map_left_iff,
        List.forall₂_map_right_iff, List.forall₂_same]
      simp only [List.mem_range]
      refine forall_congr' fun i => forall_congr' fun hi => ?_
      have := h5 i hi ρ
      show _ ≤ _ ↔ _
      constructor <;> intro h <;> linarith
    · rw [hs, if_pos rfl, if_pos rfl, List.map_map, List.map_map, List.forall₂_map_left_iff,
        List.forall₂_map_right_iff, List.forall₂_same]
      simp only [List.mem_range, Function.comp]
      refine forall_congr' fun i => forall_congr' fun hi => ?_
      have := h5 i hi ρ
      rw [neg_row]
      show _ ≤ _ ↔ _
      constructor <;> intro h <;> linarith

/-- C47 for equalities, with conditions on the difference that the method computes. -/
theorem vec_linearEq_general {c : VCon R} (hn : 2 ≤ n) (hc : (Con.v c).Canon)
    (s1 : (Expr.v c.lhs).Shape n 1) (s2 : (Expr.v c.rhs).Shape n 1)
    (hs : c.sense = .eq) (hd : c.LowDistinct)
    (hl : (Expr.v c.lhs).TermsIn (degLE 1)) (hr : (Expr.v c.rhs).TermsIn (degLE 1))
    {ws : List (Var R)} (hne : ws ≠ []) (hok : ∀ w ∈ ws, w.OK) (hnd : (ws.map (·.id)).Nodup)
    (hcov : ∀ d, c.newLHS = .ok d → ∀ v, (Expr.v d).Mentions v → v.id ∈ ws.map (·.id))
    (hm : ∀ d, c.newLHS = .ok d → ∀ m, Scalar.mono m ∈ d.entries → m.vars ≠ []) :
    ∃ A b, c.linearEq [ws] = .ok (A, b) ∧ A.length = n ∧ (∀ row ∈ A, row.length = ws.length) ∧
      ∀ ρ, (Con.v c).Sat ρ ↔ RowsEQ A ws b ρ := by
  obtain ⟨d, A, b, h1, h2, h3, h4, h5⟩ := VCon.linear_core hn hc s1 s2 hd hl hr hne hok hnd hcov hm
  have k1 : c.check = .ok () := hc.check
  have k2 : (Con.v c).requireLinear = .ok () := (requireLinear_array hc).1 ⟨hl, hr⟩
  have heq : c.linearEq [ws] = .ok ((List.range n).map A, (List.range n).map b) := by
    unfold VCon.linearEq
    rw [k1, k2, Go.ok_bind, Go.ok_bind, if_neg (by simp [hs]), h1]
    simp only [Go.ok_bind, h2, h3, Go.pure_eq]
  refine ⟨_, _, heq, by simp, ?_, fun ρ => ?_⟩
  · intro row hrow
    simp only [List.mem_map, List.mem_range] at hrow
    obtain ⟨i, hi, rfl⟩ := hrow
    exact h4 i hi
  · rw [VCon.sat_iff s1 s2, hs]
    unfold RowsEQ
    rw [List.forall₂_map_left_iff, List.forall₂_map_right_iff, List.forall₂_same]
    simp only [List.mem_range]
    refine forall_congr' fun i => forall_congr' fun hi => ?_
    have := h5 i hi ρ
    show _ = _ ↔ _
    constructor <;> intro h <;> linarith

/-- The vector constraints whose representation is correct: at least two linear rows, no row
constant, no low term written twice. -/
structure VCon.Plain (c : VCon R) (n : ℕ) : Prop where
  rows : 2 ≤ n
  canon : (Con.v c).Canon
  lshape : (Expr.v c.lhs).Shape n 1
  rshape : (Expr.v c.rhs).Shape n 1
  low : c.LowDistinct
  llin : (Expr.v c.lhs).TermsIn (degLE 1)
  rlin : (Expr.v c.rhs).TermsIn (degLE 1)
  nonconst : ∀ i < n, ∀ x y, (Expr.v c.lhs).entry i 0 = some x → (Expr.v c.rhs).entry i 0 = some y →
    ∀ t, x.den - y.den ≠ C t

/-- In addition `ws` is a non-empty duplicate-free list of valid variables that covers the
constraint. -/
structure VCon.Regular (c : VCon R) (n : ℕ) (ws : List (Var R)) : Prop extends VCon.Plain c n where
  ne : ws ≠ []
  ok : ∀ w ∈ ws, w.OK
  nodup : (ws.map (·.id)).Nodup
  covers : ∀ v, (Expr.v c.lhs).Mentions v ∨ (Expr.v c.rhs).Mentions v → v.id ∈ ws.map (·.id)

theorem VCon.Plain.diff {c : VCon R} (h : c.Plain n) (hP : ∀ v, (Expr.v c.lhs).Mentions v → P v)
    (hP' : ∀ v, (Expr.v c.rhs).Mentions v → P v) :
    ∃ d, c.newLHS = .ok d ∧ (Expr.v d).Canon ∧ (Expr.v d).Shape n 1 ∧
      (∀ v, (Expr.v d).Mentions v → P v) ∧
      (∀ m, Scalar.mono m ∈ d.entries → m.vars ≠ []) ∧ ∀ x ∈ d.entries, ∃ v, x.Mentions v := by
  obtain ⟨d, h1, h2, -⟩ := VCon.linear_parts (P := P) h.rows h.canon
    h.lshape h.rshape h.low h.llin h.rlin rearrFree_degLE_one hP hP'
  have hE : EArr n 1 (fun i _ => GoodLow P (degLE 1)
    ((c.l i).den - ((c.r i).den - C (coeff 0 (c.r i).den)))) (.v d) := earr_v_iff.mpr h2
  have hkey : ∀ x ∈ d.entries, ∀ t, x.den ≠ C t := by
    intro x hx t hden
    obtain ⟨i, hi, hg⟩ := LArr.mem h2 hx
    rw [hg.1.2] at hden
    refine h.nonconst i hi _ _ (h.lshape.entryD_some hi (by decide))
      (h.rshape.entryD_some hi (by decide)) (t - coeff 0 (c.r i).den) ?_
    rw [map_sub, ← hden]
    show (c.l i).den - (c.r i).den = _
    ring
  refine ⟨d, h1, hE.all fun i j a ha => ha.1.canon, hE.shape, ?_, ?_, ?_⟩
  · rintro v ⟨row, hrow, x, hx, hv⟩
    obtain ⟨i, j, -, -, hg⟩ := Arr.mem hE hrow hx
    exact (good_iff.mp hg.1.1).2.2 v hv
  · intro m hm hv
    exact hkey _ hm m.coeff (by rw [Scalar.den_mono, Mono.den_of_vars_nil hv])
  · intro x hx
    by_contra hno
    push Not at hno
    obtain ⟨i, hi, hg⟩ := LArr.mem h2 hx
    have hgood := good_iff.mp hg.1.1
    refine hkey x hx (coeff 0 x.den) (MvPolynomial.funext fun ρ => ?_)
    have := Scalar.value_affine hgood.1 hgood.2.1 (ids := []) (by simp) (fun v hv => (hno v hv).elim) ρ
    simpa [Scalar.value] using this

/-- C47, C36: for a linear `<=` or `>=` vector constraint the representation has the same solutions.
Missing: one row (`vec_linearIneq_one_panics`), constant rows (`vec_linearIneq_constant_panics`), low
terms written twice. -/
theorem vec_linearIneq_partial {c : VCon R} {ws : List (Var R)} (h : c.Regular n ws)
    (hs : c.sense = .le ∨ c.sense = .ge) :
    ∃ A b, c.linearIneq [ws] = .ok (A, b) ∧ A.length = n ∧ (∀ row ∈ A, row.length = ws.length) ∧
      ∀ ρ, (Con.v c).Sat ρ ↔ RowsLE A ws b ρ := by
  obtain ⟨d, h1, -, -, h2, h3, -⟩ := h.diff (fun v hv => h.covers v (Or.inl hv))
    (fun v hv => h.covers v (Or.inr hv))
  exact vec_linearIneq_general h.rows h.canon h.lshape h.rshape hs h.low h.llin h.rlin h.ne h.ok
    h.nodup (fun d' hd' => by rw [h1, Except.ok.injEq] at hd'; exact hd' ▸ h2)
    (fun d' hd' => by rw [h1, Except.ok.injEq] at hd'; exact hd' ▸ h3)

/-- C47, C37: for a linear `=` vector constraint the representation has the same solutions. -/
theorem vec_linearEq_partial {c : VCon R} {ws : List (Var R)} (h : c.Regular n ws)
    (hs : c.sense = .eq) :
    ∃ A b, c.linearEq [ws] = .ok (A, b) ∧ A.length = n ∧ (∀ row ∈ A, row.length = ws.length) ∧
      ∀ ρ, (Con.v c).Sat ρ ↔ RowsEQ A ws b ρ := by
  obtain ⟨d, h1, -, -, h2, h3, -⟩ := h.diff (fun v hv => h.covers v (Or.inl hv))
    (fun v hv => h.covers v (Or.inr hv))
  exact vec_linearEq_general h.rows h.canon h.lshape h.rshape hs h.low h.llin h.rlin h.ne h.ok
    h.nodup (fun d' hd' => by rw [h1, Except.ok.injEq] at hd'; exact hd' ▸ h2)
    (fun d' hd' => by rw [h1, Except.ok.injEq] at hd'; exact hd' ▸ h3)

/-! ## Without a list of variables -/

theorem vec_linearCoeff_default {a : Vec R} {vs : List (Var R)}
    (h : (Expr.v a).variables = .ok vs) : a.linearCoeff [] = a.linearCoeff [vs] := by
  unfold Vec.linearCoeff
  cases a.check with
  | error _ => rfl
  | ok _ => simp only [h, Go.ok_bind, Go.pure_eq]

/-- The columns used without a list: the variables of the difference of the sides, which are written
in the constraint. -/
theorem VCon.Plain.columns {c : VCon R} (h : c.Plain n) :
    ∃ d vs, c.newLHS = .ok d ∧ (Expr.v d).variables = .ok vs ∧ vs ≠ [] ∧ (∀ w ∈ vs, w.OK) ∧
      (vs.map (·.id)).Nodup ∧
      (∀ v ∈ vs, (Expr.v c.lhs).Mentions v ∨ (Expr.v c.rhs).Mentions v) ∧
      (∀ v, (Expr.v d).Mentions v → v.id ∈ vs.map (·.id)) ∧
      ∀ m, Scalar.mono m ∈ d.entries → m.vars ≠ [] := by
  obtain ⟨d, h1, hcan, hsh, h2, h3, h4⟩ := h.diff
    (P := fun v => (Expr.v c.lhs).Mentions v ∨ (Expr.v c.rhs).Mentions v) (fun v => Or.inl)
    (fun v => Or.inr)
  obtain ⟨vs, v1, v2, v3, v4⟩ := variables_array (by have := h.rows; omega) hcan hsh
  refine ⟨d, vs, h1, v1, ?_, ?_, v2, fun v hv => h2 v (v3 v hv), v4, h3⟩
  · rintro rfl
    have hlen : 0 < d.entries.length := by
      have h5 := hsh.1
      simp only [Expr.grid, List.length_map] at h5
      have := h.rows
      omega
    obtain ⟨v, hv⟩ := h4 _ (List.getElem_mem hlen)
    have := v4 v ⟨_, List.mem_map.mpr ⟨_, List.getElem_mem hlen, rfl⟩, _, by simp, hv⟩
    simp at this
  · intro w hw
    obtain ⟨row, hrow, x, hx, hv⟩ := v3 w hw
    exact mentions_ok (hcan row hrow x hx) hv

/-- C47, C36 without a list of variables: the columns are the variables of the difference of the
sides. -/
theorem vec_linearIneq_default_partial {c : VCon R} (h : c.Plain n)
    (hs : c.sense = .le ∨ c.sense = .ge) :
    ∃ d vs A b, c.newLHS = .ok d ∧ (Expr.v d).variables = .ok vs ∧ (vs.map (·.id)).Nodup ∧
      (∀ v ∈ vs, (Expr.v c.lhs).Mentions v ∨ (Expr.v c.rhs).Mentions v) ∧
      c.linearIneq [] = .ok (A, b) ∧ A.length = n ∧ (∀ row ∈ A, row.length = vs.length) ∧
      ∀ ρ, (Con.v c).Sat ρ ↔ RowsLE A vs b ρ := by
  obtain ⟨d, vs, h1, h2, h3, h4, h5, h6, h7, h8⟩ := h.columns
  obtain ⟨A, b, e1, e2⟩ := vec_linearIneq_general h.rows h.canon h.lshape h.rshape hs h.low h.llin
    h.rlin h3 h4 h5 (fun d' hd' => by rw [h1, Except.ok.injEq] at hd'; exact hd' ▸ h7)
    (fun d' hd' => by rw [h1, Except.ok.injEq] at hd'; exact hd' ▸ h8)
  refine ⟨d, vs, A, b, h1, h2, h5, h6, ?_, e2⟩
  rw [← e1]
  unfold VCon.linearIneq
  simp only [h1, Go.ok_bind, vec_linearCoeff_default h2]

/-- C47, C37 without a list of variables. -/
theorem vec_linearEq_default_partial {c : VCon R} (h : c.Plain n) (hs : c.sense = .eq) :
    ∃ d vs A b, c.newLHS = .ok d ∧ (Expr.v d).variables = .ok vs ∧ (vs.map (·.id)).Nodup ∧
      (∀ v ∈ vs, (Expr.v c.lhs).Mentions v ∨ (Expr.v c.rhs).Mentions v) ∧
      c.linearEq [] = .ok (A, b) ∧ A.length = n ∧ (∀ row ∈ A, row.length = vs.length) ∧
      ∀ ρ, (Con.v c).Sat ρ ↔ RowsEQ A vs b ρ := by
  obtain ⟨d, vs, h1, h2, h3, h4, h5, h6, h7, h8⟩ := h.columns
  obtain ⟨A, b, e1, e2⟩ := vec_linearEq_general h.rows h.canon h.lshape h.rshape hs h.low h.llin
    h.rlin h3 h4 h5 (fun d' hd' => by rw [h1, Except.ok.injEq] at hd'; exact hd' ▸ h7)
    (fun d' hd' => by rw [h1, Except.ok.injEq] at hd'; exact hd' ▸ h8)
  refine ⟨d, vs, A, b, h1, h2, h5, h6, ?_, e2⟩
  rw [← e1]
  unfold VCon.linearEq
  simp only [h1, Go.ok_bind, vec_linearCoeff_default h2]

/-! ## C34 -/

/-- C34 for vectors: `AsSimplifiedConstraint` keeps the sense, the solutions and the variables, moves
the constants to the right and everything else to the left.  Missing: one row
(`vec_linearIneq_one_panics`), low terms written twice, rearranged terms. -/
theorem vec_simplify_partial {c : VCon R} (hn : 2 ≤ n) (hc : (Con.v c).Canon)
    (s1 : (Expr.v c.lhs).Shape n 1) (s2 : (Expr.v c.rhs).Shape n 1) (hd : c.LowDistinct)
    (hl : (Expr.v c.lhs).TermsIn D) (hr : (Expr.v c.rhs).TermsIn D) (hD : RearrFree D) :
    ∃ c', c.simplify = .ok c' ∧ (Con.v c').Canon ∧ c'.sense = c.sense ∧
      (∀ v, (Expr.v c'.lhs).Mentions v → (Expr.v c.lhs).Mentions v ∨ (Expr.v c.rhs).Mentions v) ∧
      (∀ v, ¬ (Expr.v c'.rhs).Mentions v) ∧
      (∀ x ∈ c'.lhs.entries, coeff 0 x.den = 0) ∧ (∀ y ∈ c'.rhs.entries, ∃ t, y.den = C t) ∧
      ∀ ρ, (Con.v c').Sat ρ ↔ (Con.v c).Sat ρ := by
  obtain ⟨k1, k2⟩ := VCon.constants (by omega) hc s1 s2 hd
  have al := vec_arr (P := fun v => (Expr.v c.lhs).Mentions v ∨ (Expr.v c.rhs).Mentions v)
    hc.left s1 hl fun v => Or.inl
  have ar := vec_arr (P := fun v => (Expr.v c.lhs).Mentions v ∨ (Expr.v c.rhs).Mentions v)
    hc.right s2 hr fun v => Or.inr
  have kl : ∀ P : Var R → Prop, VArr n (fun i => GoodDen P D (C (coeff 0 (c.l i).den)))
      (.k ((List.range n).map fun i => coeff 0 (c.l i).den)) := fun P => vec_k_arr (by simp) _ rfl
  have kr : ∀ P : Var R → Prop, VArr n (fun i => GoodDen P D (C (coeff 0 (c.r i).den)))
      (.k ((List.range n).map fun i => coeff 0 (c.r i).den)) := fun P => vec_k_arr (by simp) _ rfl
  obtain ⟨a, a1, a2⟩ := vec_minus_low hD hn al (kl _)
  obtain ⟨b, b1, b2⟩ := vec_minus_low hD hn ar (kr _)
  obtain ⟨d, d1, d2⟩ := vec_minus_low hD hn (a2.mono fun i x _ hx => hx.1) (b2.mono fun i x _ hx => hx.1)
  obtain ⟨e, e1, e2⟩ := vec_minus_low (P := fun _ => False) hD hn (kr _) (kl _)
  have dE : EArr n 1 (fun i _ => GoodLow _ D _) (.v d) := earr_v_iff.mpr d2
  have eE : EArr n 1 (fun i _ => GoodLow _ D _) (.v e) := earr_v_iff.mpr e2
  have hsat : ∀ ρ, (Con.v ⟨d, e, c.sense⟩).Sat ρ ↔ (Con.v c).Sat ρ := by
    intro ρ
    rw [VCon.sat_iff s1 s2, VCon.sat_iff dE.shape eE.shape]
    refine forall_congr' fun i => forall_congr' fun hi => ?_
    obtain ⟨x, hx, hx'⟩ := dE.get hi (j := 0) (by decide)
    obtain ⟨y, hy, hy'⟩ := eE.get hi (j := 0) (by decide)
    have e1 : VCon.l ⟨d, e, c.sense⟩ i = x := by
      unfold VCon.l Expr.entryD
      rw [hx]; rfl
    have e2 : VCon.r ⟨d, e, c.sense⟩ i = y := by
      unfold VCon.r Expr.entryD
      rw [hy]; rfl
    have hv : (VCon.l ⟨d, e, c.sense⟩ i).value ρ - (VCon.r ⟨d, e, c.sense⟩ i).value ρ =
        (c.l i).value ρ - (c.r i).value ρ := by
      rw [e1, e2]
      unfold Scalar.value
      rw [hx'.1.2, hy'.1.2]
      simp only [map_sub, eval_C]
      show _ = eval ρ ((Expr.v c.lhs).entryD i 0).den - eval ρ ((Expr.v c.rhs).entryD i 0).den
      unfold VCon.l VCon.r
      ring
    have h0 := Sense.holds_shift c.sense (VCon.l ⟨d, e, c.sense⟩ i |>.value ρ)
      (VCon.r ⟨d, e, c.sense⟩ i |>.value ρ) 0
    rw [hv, Sense.holds_shift] at h0
    exact h0.symm
  refine ⟨⟨d, e, c.sense⟩, ?_, ⟨?_, ?_, ?_, ?_⟩, rfl, ?_, ?_, ?_, ?_, hsat⟩
  · unfold VCon.simplify
    rw [show c.check = .ok () from hc.check, k1, k2]
    simp only [Go.ok_bind, a1, b1, d1, e1]
    rfl
  · exact dE.all fun i j a ha => ha.1.canon
  · exact eE.all fun i j a ha => ha.1.canon
  · exact ⟨n, 1, dE.shape, eE.shape, by omega, by decide⟩
  · exact hc.sense
  · rintro v ⟨row, hrow, x, hx, hv⟩
    obtain ⟨i, j, -, -, hg⟩ := Arr.mem dE hrow hx
    exact (good_iff.mp hg.1.1).2.2 v hv
  · rintro v ⟨row, hrow, x, hx, hv⟩
    obtain ⟨i, j, -, -, hg⟩ := Arr.mem eE hrow hx
    exact (good_iff.mp hg.1.1).2.2 v hv
  · intro x hx
    obtain ⟨i, -, hg⟩ := LArr.mem d2 hx
    rw [hg.1.2]
    simp only [coeff_sub, coeff_zero_C]
    unfold VCon.l VCon.r
    ring
  · intro y hy
    obtain ⟨i, -, hg⟩ := LArr.mem e2 hy
    exact ⟨_, by rw [hg.1.2, ← map_sub]⟩

/-! ## Counterexamples and examples -/

/-- `(x - y + 1, 2x - 2) >= (y, 3 + z)` -/
def wvc1 : VCon ℚ := ⟨.p [⟨[wm1 1 0 1, wm1 (-1) 1 1, wm0 1]⟩, ⟨[wm1 2 0 1, wm0 (-2)]⟩],
  .p [⟨[wm1 1 1 1]⟩, ⟨[wm0 3, wm1 1 2 1]⟩], .ge⟩
/-- `(2x, y) = (1, 2)` -/
def wvc2 : VCon ℚ := ⟨.m [wm1 2 0 1, wm1 1 1 1], .k [1, 2], .eq⟩
/-- `(2x) <= (1)` -/
def wvc3 : VCon ℚ := ⟨.m [wm1 2 0 1], .k [1], .le⟩
/-- `(2x, y) <= (1, y)` -/
def wvc4 : VCon ℚ := ⟨.m [wm1 2 0 1, wm1 1 1 1], .m [wm0 1, wm1 1 1 1], .le⟩

theorem VCon.nonconst_of {c : VCon ℚ} (ρ₁ ρ₂ : ℕ → ℚ)
    (h : ∀ i < n, (c.l i).evalAt ρ₁ - (c.r i).evalAt ρ₁ ≠ (c.l i).evalAt ρ₂ - (c.r i).evalAt ρ₂) :
    ∀ i < n, ∀ x y, (Expr.v c.lhs).entry i 0 = some x → (Expr.v c.rhs).entry i 0 = some y →
      ∀ t, x.den - y.den ≠ C t := by
  intro i hi x y hx hy t ht
  refine h i hi ?_
  have h1 : c.l i = x := by unfold VCon.l Expr.entryD; rw [hx]; rfl
  have h2 : c.r i = y := by unfold VCon.r Expr.entryD; rw [hy]; rfl
  rw [h1, h2, ← Scalar.value_eq_evalAt, ← Scalar.value_eq_evalAt, ← Scalar.value_eq_evalAt,
    ← Scalar.value_eq_evalAt]
  unfold Scalar.value
  rw [← map_sub, ← map_sub, ht, eval_C, eval_C]

theorem wvc1_regular : wvc1.Regular 2 [wx, wy, wz] where
  rows := by decide
  canon := ⟨Expr.okDeg_canon 1 (by decide +kernel), Expr.okDeg_canon 1 (by decide +kernel),
    ⟨2, 1, by decide +kernel, by decide +kernel, by decide, by decide⟩, Or.inr (Or.inr rfl)⟩
  lshape := by decide +kernel
  rshape := by decide +kernel
  low := by
    constructor <;> intro x hx <;>
      simp only [wvc1, Vec.entries, List.map_cons, List.map_nil, List.mem_cons, List.not_mem_nil,
        or_false] at hx <;>
      rcases hx with rfl | rfl <;> simp [Scalar.LowDistinct, wm1_degs, wm0_degs,
        Finsupp.single_eq_single_iff, eq_comm (a := (0 : ℕ →₀ ℕ))]
  llin := Expr.okDeg_terms (by decide +kernel)
  rlin := Expr.okDeg_terms (by decide +kernel)
  nonconst := VCon.nonconst_of (fun _ => 0) (fun i => if i = 0 then 1 else 0) (by decide +kernel)
  ne := by simp
  ok := by simp [wv_ok]
  nodup := by decide +kernel
  covers := by
    intro v hv
    simp only [Expr.Mentions, Expr.grid, wvc1, Vec.entries, List.map_cons, List.map_nil, wm1, wm0,
      List.mem_cons, List.not_mem_nil, or_false, exists_eq_or_imp, exists_eq_left, Scalar.Mentions,
      false_or] at hv
    rcases hv with ((rfl | rfl) | rfl) | (rfl | rfl) <;> decide +kernel

/-- The representation of `wvc1` describes its solutions. -/
example : ∃ A b, wvc1.linearIneq [[wx, wy, wz]] = .ok (A, b) ∧ A.length = 2 ∧
    (∀ row ∈ A, row.length = 3) ∧ ∀ ρ, (Con.v wvc1).Sat ρ ↔ RowsLE A [wx, wy, wz] b ρ :=
  vec_linearIneq_partial wvc1_regular (Or.inr rfl)

example : wvc1.linearIneq [[wx, wy, wz]] = .ok ([[-1, 2, 0], [-2, 0, 1]], [1, -5]) := by
  decide +kernel

/-- The condition of `vec_linearIneq_default_partial` and `vec_simplify_partial` holds for `wvc1`. -/
example : wvc1.Plain 2 := wvc1_regular.toPlain

example : wvc1.simplify = .ok ⟨.p [⟨[wm1 1 0 1, wm1 (-2) 1 1]⟩, ⟨[wm1 2 0 1, wm1 (-1) 2 1]⟩],
    .k [-1, 5], .ge⟩ := by decide +kernel

theorem wvc2_regular : wvc2.Regular 2 [wx, wy] where
  rows := by decide
  canon := ⟨Expr.okDeg_canon 1 (by decide +kernel), Expr.okDeg_canon 1 (by decide +kernel),
    ⟨2, 1, by decide +kernel, by decide +kernel, by decide, by decide⟩, Or.inl rfl⟩
  lshape := by decide +kernel
  rshape := by decide +kernel
  low := by
    constructor <;> intro x hx <;>
      simp only [wvc2, Vec.entries, List.map_cons, List.map_nil, List.mem_cons, List.not_mem_nil,
        or_false] at hx <;>
      rcases hx with rfl | rfl <;> trivial
  llin := Expr.okDeg_terms (by decide +kernel)
  rlin := Expr.okDeg_terms (by decide +kernel)
  nonconst := VCon.nonconst_of (fun _ => 0) (fun _ => 1) (by decide +kernel)
  ne := by simp
  ok := by simp [wv_ok]
  nodup := by decide +kernel
  covers := by
    intro v hv
    simp only [Expr.Mentions, Expr.grid, wvc2, Vec.entries, List.map_cons, List.map_nil, wm1, wm0,
      List.mem_cons, List.not_mem_nil, or_false, exists_eq_or_imp, exists_eq_left, Scalar.Mentions,
      false_or] at hv
    rcases hv with rfl | rfl <;> decide +kernel

example : ∃ A b, wvc2.linearEq [[wx, wy]] = .ok (A, b) ∧ A.length = 2 ∧
    (∀ row ∈ A, row.length = 2) ∧ ∀ ρ, (Con.v wvc2).Sat ρ ↔ RowsEQ A [wx, wy] b ρ :=
  vec_linearEq_partial wvc2_regular rfl

example : wvc2.linearIneq [[wx, wy]] = .error .inequalityRequired :=
  (vec_linear_rejects_sense wvc2_regular.canon wvc2_regular.llin wvc2_regular.rlin _).2 rfl

/-- C47, C34 are false for one row: the difference of two vectors of length one is a scalar, and the
type assertion panics. -/
theorem vec_linearIneq_one_panics : wvc3.linearIneq [[wx]] = .error .typeAssert ∧
    wvc3.linearIneq [] = .error .typeAssert ∧ wvc3.simplify = .error .typeAssert := by
  decide +kernel

/-- C47 is false for a row without variables: `(2x, y) <= (1, y)` panics although it is linear, well
formed and covered by the list. -/
theorem vec_linearIneq_constant_panics : wvc4.linearIneq [[wx, wy]] = .error .index ∧
    (Con.v wvc4).isLinear = .ok true := by
  decide +kernel

/-- C36, C47 are false for vector constraints in general. -/
theorem vec_linearIneq_false :
    ¬ ∀ (c : VCon ℚ) (ws : List (Var ℚ)), (Con.v c).Canon → c.LowDistinct →
      (Expr.v c.lhs).TermsIn (degLE 1) → (Expr.v c.rhs).TermsIn (degLE 1) → c.sense = .le →
      ws ≠ [] → (∀ w ∈ ws, w.OK) → (ws.map (·.id)).Nodup →
      (∀ v, (Expr.v c.lhs).Mentions v ∨ (Expr.v c.rhs).Mentions v → v.id ∈ ws.map (·.id)) →
      ∃ A b, c.linearIneq [ws] = .ok (A, b) ∧ ∀ ρ, (Con.v c).Sat ρ ↔ RowsLE A ws b ρ := by
  intro h
  obtain ⟨A, b, h1, -⟩ := h wvc3 [wx]
    ⟨Expr.okDeg_canon 1 (by decide +kernel), Expr.okDeg_canon 1 (by decide +kernel),
      ⟨1, 1, by decide +kernel, by decide +kernel, by decide, by decide⟩, Or.inr (Or.inl rfl)⟩
    (by constructor <;> simp [wvc3, Vec.entries, Scalar.LowDistinct])
    (Expr.okDeg_terms (by decide +kernel)) (Expr.okDeg_terms (by decide +kernel)) rfl (by simp)
    (by simp [wv_ok]) (by decide +kernel) (by
      intro v hv
      simp only [Expr.Mentions, Expr.grid, wvc3, Vec.entries, List.map_cons, List.map_nil, wm1, wm0,
        List.mem_cons, List.not_mem_nil, or_false, exists_eq_left, Scalar.Mentions] at hv
      subst hv
      decide +kernel)
  rw [vec_linearIneq_one_panics.1] at h1
  simp at h1

end Verif
