import Verif.SpecConstraint
import Verif.Props.Coeffs

/-!
# Lemmas for constraints
-/

set_option linter.unusedSectionVars false

namespace Verif

open MvPolynomial

variable {R : Type} [Field R] [LinearOrder R]

/-! ## Degrees as sets of terms -/

theorem mem_degLE {n : ℕ} {d : ℕ →₀ ℕ} : d ∈ degLE n ↔ (d.sum fun _ e => e) ≤ n := Iff.rfl

/-- `Degree()` is at most `n` exactly when all written terms have degree at most `n`. -/
theorem Scalar.degree_le_iff {a : Scalar R} (ha : a.Canon) {n : ℕ} :
    ∃ d : Int, a.degree = .ok d ∧ (d ≤ n ↔ a.TermsIn (degLE n)) := by
  cases a with
  | k c => exact ⟨0, rfl, by simp [Scalar.TermsIn]⟩
  | var v =>
    refine ⟨1, rfl, ?_⟩
    simp only [Scalar.TermsIn, mem_degLE]
    rw [Finsupp.sum_single_index rfl]
    omega
  | mono m =>
    have hm : m.Canon := ha
    refine ⟨_, Mono.degree_ok hm.len, ?_⟩
    rw [Mono.exps_sum hm]
    simp only [Scalar.TermsIn, mem_degLE, Nat.cast_le]
    constructor
    · exact Or.inr
    · rintro (h | h)
      · rw [hm.degs_eq_zero.mpr h]; simp
      · exact h
  | poly p =>
    have hp : p.Canon := ha
    refine ⟨_, Poly.degree_ok hp.ne (fun m hm => (hp.all m hm).len), ?_⟩
    simp only [Scalar.TermsIn, mem_degLE]
    constructor
    · intro h m hm
      right
      have h1 := le_maxDeg hm
      rw [Mono.exps_sum (hp.all m hm)] at h1
      omega
    · intro h
      have key : ∀ l : List (Mono R), (∀ m ∈ l, m.exps.sum ≤ (n : Int)) → maxDeg l ≤ n := by
        intro l hl
        rcases maxDeg_mem l with h0 | ⟨m, hm, he⟩
        · omega
        · rw [he]; exact hl m hm
      apply key
      intro m hm
      rw [Mono.exps_sum (hp.all m hm)]
      rcases h m hm with h | h
      · rw [(hp.all m hm).degs_eq_zero.mpr h]; simp
      · exact_mod_cast h

/-- The variables written in a well-formed expression are valid. -/
theorem mentions_ok {e : Scalar R} (he : e.Canon) {v : Var R} (hv : e.Mentions v) : v.OK := by
  cases e with
  | k c => exact hv.elim
  | var w => exact (show v = w from hv) ▸ he
  | mono m => exact Mono.Canon.ok he v hv
  | poly p =>
    obtain ⟨m, hm, hv⟩ := hv
    exact (Poly.Canon.all he m hm).ok v hv

/-- For linear expressions the value is determined by the constant term and the linear
coefficients. -/
theorem Scalar.value_affine {e : Scalar R} (he : e.Canon) (ht : e.TermsIn (degLE 1)) {ids : List ℕ}
    (hnd : ids.Nodup) (hcov : ∀ v, e.Mentions v → v.id ∈ ids) (ρ : ℕ → R) :
    e.value ρ = coeff 0 e.den +
      (ids.map (fun i => coeff (Finsupp.single i 1) e.den * ρ i)).sum := by
  obtain ⟨d, hd, hd'⟩ := Scalar.degree_le_iff he (n := 1)
  obtain ⟨n, hn, hn'⟩ := degree_upper_bound he
  rw [hd, Except.ok.injEq] at hn
  subst hn
  have hdeg : e.den.totalDegree ≤ 1 := by
    have := hd'.mpr ht
    omega
  have hv : ∀ i ∈ e.den.vars, i ∈ ids := by
    intro i hi
    obtain ⟨v, hv, rfl⟩ := List.mem_map.mp (variables_complete he hi)
    exact hcov v ((variables_nodup he).2.1 v hv)
  unfold Scalar.value
  conv_lhs => rw [affine_eq hdeg hnd hv]
  rw [map_add, map_list_sum, List.map_map]
  simp [Function.comp_def]

/-! ## Results of arithmetic have no repeated low terms -/

/-- What `LinearCoeff` and `Constant` need: no low term twice, and not a constant monomial. -/
def Scalar.Simple (r : Scalar R) : Prop := r.LowDistinct ∧ ∀ m, r = .mono m → m.vars ≠ []

theorem Scalar.asSimplified_simple {a r : Scalar R} (ha : a.Canon) (h : a.asSimplified = .ok r) :
    r.Simple := by
  cases a with
  | k c =>
    have : r = .k c := by simpa [Scalar.asSimplified, Go.pure_eq, eq_comm] using h
    subst this
    exact ⟨trivial, by simp⟩
  | var v =>
    have : r = .var v := by simpa [Scalar.asSimplified, Go.pure_eq, eq_comm] using h
    subst this
    exact ⟨trivial, by simp⟩
  | mono m =>
    have hm : m.Canon := ha
    change m.asSimplified = .ok r at h
    rw [Mono.asSimplified_eq hm, Except.ok.injEq] at h
    subst h
    split
    · exact ⟨trivial, by simp⟩
    · rename_i hv
      split
      · exact ⟨trivial, by simp⟩
      · split
        · split <;> exact ⟨trivial, by simp⟩
        · refine ⟨trivial, ?_⟩
          intro m' hm'
          rw [Scalar.mono.injEq] at hm'
          exact hm' ▸ hv
  | poly p =>
    have hg : Good (fun _ => True) Set.univ (.poly p) := good_of_univ (s := .poly p) ha
    obtain ⟨r', h5, q, hq, -, -, hr⟩ := Poly.asSimplified_ok hg.1 hg.2
    change p.asSimplified = .ok r at h
    rw [h, Except.ok.injEq] at h5
    subst h5
    have hl := simplify_lowDistinct ha hq
    cases hr with
    | const c _ => exact ⟨trivial, by simp⟩
    | var c v _ _ => exact ⟨trivial, by simp⟩
    | mono m _ hv _ =>
      refine ⟨trivial, ?_⟩
      intro m' hm'
      rw [Scalar.mono.injEq] at hm'
      exact hm' ▸ hv
    | poly _ => exact ⟨hl, by simp⟩

theorem Scalar.plus_simple {a b r : Scalar R} (ha : a.Canon) (hb : b.Canon)
    (h : a.plus b = .ok r) : r.Simple := by
  obtain ⟨s, hs, e⟩ := Scalar.plus_ends (good_of_univ ha) (good_of_univ hb)
  rw [good_iff] at hs
  exact Scalar.asSimplified_simple hs.1 (e ▸ h)

theorem Scalar.minus_simple {a b r : Scalar R} (ha : a.Canon) (hb : b.Canon)
    (h : a.minus b = .ok r) : r.Simple := by
  unfold Scalar.minus at h
  rw [(good_of_univ ha).check, (good_of_univ hb).check, Go.ok_bind, Go.ok_bind] at h
  obtain ⟨s, hs, h2⟩ := Scalar.mulF64_good (good_of_univ hb) (negOne : R)
  rw [hs, Go.ok_bind] at h
  rw [good_iff] at h2
  exact Scalar.plus_simple ha h2.1 h

theorem Scalar.plusF64_simple {a r : Scalar R} {c : R} (ha : a.Canon)
    (h : a.plusF64 c = .ok r) : r.Simple := by
  obtain ⟨s, hs, h2⟩ := Scalar.plus_good (good_of_univ ha) (b := .k c) (D := Set.univ)
    (P := fun _ => True) trivial
  rw [good_iff] at h2
  cases a with
  | k d => exact Scalar.plus_simple (a := .k d) (b := .k c) trivial trivial h
  | var v | mono m | poly p =>
    simp only [Scalar.plusF64] at h
    rw [hs, Go.ok_bind] at h
    exact Scalar.asSimplified_simple h2.1 h

end Verif
