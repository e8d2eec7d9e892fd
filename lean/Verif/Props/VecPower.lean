import Verif.Props.Arith
import Verif.Props.ArithNeg
import Verif.Props.RejectArray

/-!
# C56: Power of a vector

`Power` of a vector is the power of its entry when the vector has exactly one entry; it is rejected
for every other length, for a negative exponent and for a malformed vector.
-/

namespace Verif

open MvPolynomial

section Structure

variable {R : Type} [GoNum R]

theorem powLoop_foldlM (x : Scalar R) (f : Go (Scalar R)) (hf : f = .ok x) (n : ℕ) :
    ∀ acc : Scalar R, (List.range n).foldlM (fun (acc : Scalar R) _ => do acc.mul (← f)) acc =
      powLoop x n acc := by
  have key : ∀ (l : List ℕ) (acc : Scalar R),
      l.foldlM (fun (acc : Scalar R) _ => do acc.mul (← f)) acc = powLoop x l.length acc := by
    intro l
    induction l with
    | nil => intro acc; rfl
    | cons a l ih =>
      intro acc
      rw [List.foldlM_cons, hf, Go.ok_bind, List.length_cons, powLoop]
      congr 1
      funext y
      rw [← hf]
      exact ih y
  intro acc
  rw [key, List.length_range]

/-- The only entry of an accepted vector of length one. -/
theorem Vec.single {a : Vec R} {x : Scalar R} (hc : a.Accepted) (hx : a.entries = [x]) :
    a.check = .ok () ∧ a.len = .ok 1 ∧ a.atVec 0 = .ok x ∧ x.check = .ok () := by
  have hk := (vec_check_cases a).1.mpr hc
  refine ⟨hk, ?_⟩
  rw [← and_assoc]
  refine ⟨?_, check_ok_iff_accepted.mpr (hc.1 x (by rw [hx]; simp))⟩
  have key : ∀ {α : Type} {f : α → Scalar R} {l : List α}, l.map f = [x] → ∃ y, l = [y] ∧ f y = x := by
    intro α f l h
    match l, h with
    | [y], h => exact ⟨y, rfl, by simpa using h⟩
    | _ :: _ :: _, h => simp at h
  cases a with
  | k l => obtain ⟨y, rfl, rfl⟩ := key hx; exact ⟨rfl, rfl⟩
  | v l => obtain ⟨y, rfl, rfl⟩ := key hx; exact ⟨rfl, rfl⟩
  | m l =>
    obtain ⟨y, rfl, rfl⟩ := key hx
    exact ⟨rfl, by simp only [Vec.atVec, hk, Go.ok_bind]; rfl⟩
  | p l =>
    obtain ⟨y, rfl, rfl⟩ := key hx
    exact ⟨by simp only [Vec.len, hk, Go.ok_bind]; rfl,
      by simp only [Vec.atVec, Vec.dims, Vec.len, hk, Go.ok_bind]; rfl⟩

/-- C56 (every number type): `Power` of an accepted vector with one entry is, value or panic, `Power`
of that entry. -/
theorem vec_power_single {a : Vec R} {x : Scalar R} (hc : a.Accepted)
    (hx : a.entries = [x]) (n : ℤ) : a.power n = x.power n := by
  obtain ⟨h0, h1, h2, h3⟩ := Vec.single hc hx
  unfold Vec.power Scalar.power
  simp only [h0, h1, h3, Go.ok_bind]
  split
  · rfl
  · simp only [ne_eq, not_true_eq_false, if_false]
    exact powLoop_foldlM x _ h2 _ _

/-- C56 (every number type): a vector whose number of entries is not one is rejected, for every
exponent. -/
theorem vec_power_length {a : Vec R} (hl : a.entries.length ≠ 1) (n : ℤ) :
    ∃ x, a.power n = .error x := by
  unfold Vec.power
  rcases hc : a.check with e | u
  · exact ⟨e, rfl⟩
  rw [Go.ok_bind]
  split
  · exact ⟨_, rfl⟩
  have : a.len = .ok a.entries.length := by
    cases a with
    | k l => simp [Vec.len, Vec.entries, Go.pure_eq]
    | v l => simp [Vec.len, Vec.entries, Go.pure_eq]
    | m l => simp [Vec.len, Vec.entries, Go.pure_eq]
    | p l => simp only [Vec.len, hc, Go.ok_bind]; simp [Vec.entries, Go.pure_eq]
  simp only [this, Go.ok_bind]
  rw [if_pos hl]
  exact ⟨_, rfl⟩

/-- C56 (every number type): a malformed vector is rejected, for every exponent. -/
theorem vec_power_malformed {a : Vec R} (hc : ¬ a.Accepted) (n : ℤ) :
    ∃ x, a.power n = .error x := by
  rcases (vec_check_cases a).2 with h | h
  · exact absurd ((vec_check_cases a).1.mp h) hc
  · unfold Vec.power
    rw [h]
    exact ⟨_, rfl⟩

/-- C56 (every number type): a negative exponent is rejected, for every vector. -/
theorem vec_power_negative {a : Vec R} {n : ℤ} (hn : n < 0) : ∃ x, a.power n = .error x := by
  unfold Vec.power
  rcases hc : a.check with e | u
  · exact ⟨e, rfl⟩
  rw [Go.ok_bind, if_pos hn]
  exact ⟨_, rfl⟩

/-- C56 (every number type): exactly when `Power` of a vector returns, and what. -/
theorem vec_power_ok_iff {a : Vec R} {n : ℤ} {y : Scalar R} :
    a.power n = .ok y ↔ a.Accepted ∧ 0 ≤ n ∧ ∃ x, a.entries = [x] ∧ x.power n = .ok y := by
  constructor
  · intro h
    have hc : a.Accepted := by
      by_contra hc
      obtain ⟨e, he⟩ := vec_power_malformed hc n
      rw [he] at h; cases h
    have hn : 0 ≤ n := by
      by_contra hn
      obtain ⟨e, he⟩ := vec_power_negative (a := a) (n := n) (by omega)
      rw [he] at h; cases h
    have hl : a.entries.length = 1 := by
      by_contra hl
      obtain ⟨e, he⟩ := vec_power_length hl n
      rw [he] at h; cases h
    obtain ⟨x, hx⟩ := List.length_eq_one_iff.mp hl
    exact ⟨hc, hn, x, hx, by rw [← vec_power_single hc hx]; exact h⟩
  · rintro ⟨hc, -, x, hx, h⟩
    rw [vec_power_single hc hx]; exact h

theorem Vec.single_canon {a : Vec R} {x : Scalar R} (ha : (Expr.v a).Canon) (hx : a.entries = [x]) :
    a.Accepted ∧ x.Canon := by
  have hxc : x.Canon := ha [x] (by simp [Expr.grid, hx]) x (by simp)
  refine ⟨⟨fun y hy => ?_, fun _ => by simp [hx]⟩, hxc⟩
  rw [hx, List.mem_singleton] at hy
  subst hy
  exact check_ok_iff_accepted.mp (good_of_univ hxc).check

/-- C56 (every number type): on a well-formed vector with one entry and an exponent that is not
negative, `Power` returns a well-formed expression that mentions no new variable. -/
theorem vec_power_total {a : Vec R} {x : Scalar R} (ha : (Expr.v a).Canon)
    (hx : a.entries = [x]) {n : ℤ} (hn : 0 ≤ n) :
    ∃ r, a.power n = .ok r ∧ r.Canon ∧ ∀ v, r.Mentions v → x.Mentions v := by
  obtain ⟨hc, hxc⟩ := Vec.single_canon ha hx
  obtain ⟨r, h1, h2⟩ := power_total hxc hn
  exact ⟨r, by rw [vec_power_single hc hx]; exact h1, h2⟩

end Structure

section Value

variable {R : Type} [Field R] [LinearOrder R]

/-- C56, partial: when the powers of the entry keep their terms in a rearrangement-free set, the
result denotes the power of the entry.  The full statement drops the set; it is false
(`vec_power_false`). -/
theorem vec_power_partial {D : Set (ℕ →₀ ℕ)} {a : Vec R} {x : Scalar R} (ha : (Expr.v a).Canon)
    (hx : a.entries = [x]) (ta : x.TermsIn D) {n : ℤ} (hn : 0 ≤ n)
    (hD : RearrFree {d | NSum D n.toNat d}) :
    ∃ r, a.power n = .ok r ∧ r.Canon ∧ r.den = x.den ^ n.toNat := by
  obtain ⟨hc, hxc⟩ := Vec.single_canon ha hx
  obtain ⟨r, h1, h2, -, h3⟩ := power_denotes_power_partial hxc ta hn hD
  exact ⟨r, by rw [vec_power_single hc hx]; exact h1, h2, h3⟩

/-- C56 for an entry in one variable: every power. -/
theorem vec_power_univariate (i : ℕ) {a : Vec R} {x : Scalar R} (ha : (Expr.v a).Canon)
    (hx : a.entries = [x]) (ta : x.TermsIn (univ1 i)) {n : ℤ} (hn : 0 ≤ n) :
    ∃ r, a.power n = .ok r ∧ r.Canon ∧ r.den = x.den ^ n.toNat := by
  obtain ⟨hc, hxc⟩ := Vec.single_canon ha hx
  obtain ⟨r, h1, h2, -, h3⟩ := power_denotes_power_univariate i hxc ta hn
  exact ⟨r, by rw [vec_power_single hc hx]; exact h1, h2, h3⟩

/-- C56 for vectors of constants, variables and monomials: every power, without condition. -/
theorem vec_power_nonpoly {a : Vec R} {x : Scalar R} (ha : (Expr.v a).Canon)
    (hx : a.entries = [x]) (na : ∀ l, a ≠ .p l) {n : ℤ} (hn : 0 ≤ n) :
    ∃ r, a.power n = .ok r ∧ r.Canon ∧ r.den = x.den ^ n.toNat := by
  obtain ⟨hc, hxc⟩ := Vec.single_canon ha hx
  have nx : ∀ p, x ≠ .poly p := by
    rintro p rfl
    cases a with
    | p l => exact na l rfl
    | k l => have : Scalar.poly p ∈ l.map Scalar.k := by rw [show l.map Scalar.k = _ from hx]; simp
             simp at this
    | v l => have : Scalar.poly p ∈ l.map Scalar.var := by rw [show l.map Scalar.var = _ from hx]; simp
             simp at this
    | m l => have : Scalar.poly p ∈ l.map Scalar.mono := by rw [show l.map Scalar.mono = _ from hx]; simp
             simp at this
  obtain ⟨r, h1, h2, -, h3⟩ := power_denotes_power_nonpoly hxc nx hn
  exact ⟨r, by rw [vec_power_single hc hx]; exact h1, h2, h3⟩

end Value

/-- The full statement of C56 is false, because the power of the entry can be wrong. -/
theorem vec_power_false :
    ¬ ∀ (a : Vec ℚ) (x : Scalar ℚ) (n : ℤ), (Expr.v a).Canon → a.entries = [x] → 0 ≤ n →
      ∃ r, a.power n = .ok r ∧ r.den = x.den ^ n.toNat := by
  intro h
  refine power_false fun a n ha hn => ?_
  by_cases hp : ∃ p, a = .poly p
  · obtain ⟨p, rfl⟩ := hp
    have hc : (Expr.v (.p [p])).Canon := by
      intro row hrow y hy
      simp only [Expr.grid, Vec.entries, List.map_cons, List.map_nil, List.mem_singleton] at hrow
      subst hrow
      rw [List.mem_singleton] at hy
      subst hy
      exact ha
    obtain ⟨r, h1, h2⟩ := h (.p [p]) (.poly p) n hc rfl hn
    exact ⟨r, by rw [← vec_power_single (Vec.single_canon hc rfl).1 rfl]; exact h1, h2⟩
  · obtain ⟨r, h1, -, -, h2⟩ := power_denotes_power_nonpoly ha (fun p hp' => hp ⟨p, hp'⟩) hn
    exact ⟨r, h1, h2⟩

/-! ### The hypotheses are met -/

/-- The vector with the single entry `x^3 + x`, to the fifth power. -/
example : ∃ r, (Vec.p [⟨[wm1 1 0 3, wm1 1 0 1]⟩] : Vec ℚ).power 5 = .ok r ∧ r.Canon ∧
    r.den = wU.den ^ 5 :=
  vec_power_univariate 0 (x := wU) (Expr.okDeg_canon 3 (by decide +kernel)) rfl wU_terms (by decide)

/-- The vector with the single entry `x + y`, squared. -/
example : ∃ r, (Vec.p [⟨[wm1 1 0 1, wm1 1 1 1]⟩] : Vec ℚ).power 2 = .ok r ∧ r.Canon ∧
    r.den = (Scalar.poly ⟨[wm1 1 0 1, wm1 1 1 1]⟩ : Scalar ℚ).den ^ 2 :=
  vec_power_partial (D := degLE 1) (x := .poly ⟨[wm1 1 0 1, wm1 1 1 1]⟩)
    (Expr.okDeg_canon 2 (by decide +kernel)) rfl (Scalar.okDeg_spec (n := 1) (by decide +kernel)).2
    (by decide) (rearrFree_degLE_two.mono (nsum_degLE 1 2))

/-- Two entries. -/
example : ∃ e, (Vec.v [wv 0, wv 1] : Vec ℚ).power 2 = .error e := vec_power_length (by decide) 2

/-- The empty vector of monomials is malformed. -/
example : ∃ e, (Vec.m [] : Vec ℚ).power 0 = .error e :=
  vec_power_malformed (fun h => h.2 (Or.inl ⟨_, rfl⟩) rfl) 0

end Verif
