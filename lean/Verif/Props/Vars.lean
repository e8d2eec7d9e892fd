import Verif.Lemmas.NormalForm
import Verif.Lemmas.Families
import Verif.Witness

/-!
# C19, C20: variable lists
-/

set_option linter.unusedSectionVars false

namespace Verif

open MvPolynomial

variable {R : Type}

/-! ## C20 -/

/-- Specification: the first occurrence of every key, in order of first occurrence. -/
def firstOcc {α : Type} (key : α → ℕ) : List α → List α
  | [] => []
  | a :: l => a :: (firstOcc key l).filter (fun b => decide (key b ≠ key a))

theorem uniqueFold_firstOcc (l acc : List (Var R)) :
    l.foldl uniqueStep acc =
      acc ++ (firstOcc Var.id l).filter (fun b => decide (b.id ∉ acc.map (·.id))) := by
  induction l generalizing acc with
  | nil => simp [firstOcc]
  | cons v l ih =>
    rw [List.foldl_cons, ih, firstOcc]
    rcases uniqueStep_cases acc v with ⟨h1, h2⟩ | ⟨h1, h2⟩
    · rw [h2, List.filter_cons_of_pos (by simpa using h1), List.filter_filter, List.append_assoc,
        List.singleton_append]
      congr 2
      apply List.filter_congr
      intro b _
      rw [List.map_append, ← Bool.decide_and]
      congr 1
      simp [not_or]
    · rw [h2, List.filter_cons_of_neg (by simpa using h1), List.filter_filter]
      congr 1
      apply List.filter_congr
      intro b _
      by_cases hb : b.id = v.id
      · simp only [hb, h1]; simp
      · simp [hb]

theorem findEq_eq_none {α : Type} [DecidableEq α] {x : α} {l : List α} :
    findEq x l = none ↔ x ∉ l := by
  induction l with
  | nil => simp [findEq]
  | cons y ys ih =>
    unfold findEq
    cases h : findEq x ys with
    | some i =>
      have : x ∈ ys := by
        by_contra hc
        rw [ih.mpr hc] at h
        cases h
      simp [this]
    | none =>
      have := ih.mp h
      by_cases hx : x = y <;> simp [hx, this] at *

/-- C20: `UniqueVars` returns exactly the first occurrence of every ID, in order of first
occurrence, for every list of variables. -/
theorem uniqueVars_eq_firstOcc (l : List (Var R)) : uniqueVars l = firstOcc Var.id l := by
  unfold uniqueVars
  rw [uniqueFold_firstOcc]
  simp

/-- C20: consequences, stated without `firstOcc`: the output is a sublist with one variable per ID,
no ID is lost, the kept variable is the first with its ID, and a second call changes nothing. -/
theorem uniqueVars_spec (l : List (Var R)) :
    (uniqueVars l).Sublist l ∧ ((uniqueVars l).map (·.id)).Nodup ∧
    (∀ i, i ∈ (uniqueVars l).map (·.id) ↔ i ∈ l.map (·.id)) ∧
    (∀ v ∈ uniqueVars l, l.find? (fun w => decide (w.id = v.id)) = some v) ∧
    uniqueVars (uniqueVars l) = uniqueVars l := by
  refine ⟨uniqueVars_sublist l, uniqueVars_nodup l, uniqueVars_ids l, ?_,
    uniqueVars_of_nodup (uniqueVars_nodup l)⟩
  rw [uniqueVars_eq_firstOcc]
  induction l with
  | nil => simp [firstOcc]
  | cons a l ih =>
    intro v hv
    rw [firstOcc, List.mem_cons] at hv
    rcases hv with rfl | hv
    · simp
    · rw [List.mem_filter] at hv
      rw [List.find?_cons_of_neg (by
        have := hv.2
        simp only [decide_eq_true_eq] at this ⊢
        exact fun h => this h.symm)]
      exact ih v hv.1

/-- C20: `UnionOfVariables` has as IDs exactly the union of the IDs, one variable for each, taken
from the first list that has it. -/
theorem unionOfVariables_spec (ls : List (List (Var R))) :
    (∀ i, i ∈ (unionOfVariables ls).map (·.id) ↔ ∃ l ∈ ls, i ∈ l.map (·.id)) ∧
    ((unionOfVariables ls).map (·.id)).Nodup ∧
    (∀ v ∈ unionOfVariables ls, ls.flatten.find? (fun w => decide (w.id = v.id)) = some v) ∧
    unionOfVariables [unionOfVariables ls] = unionOfVariables ls ∧
    unionOfVariables [unionOfVariables ls, unionOfVariables ls] = unionOfVariables ls := by
  obtain ⟨-, h2, h3, h4, h5⟩ := uniqueVars_spec ls.flatten
  refine ⟨?_, h2, h4, ?_, ?_⟩
  · intro i
    have := h3 i
    unfold unionOfVariables
    rw [this]
    simp only [List.mem_map, List.mem_flatten]
    constructor
    · rintro ⟨v, ⟨l, hl, hv⟩, rfl⟩
      exact ⟨l, hl, v, hv, rfl⟩
    · rintro ⟨l, hl, v, hv, rfl⟩
      exact ⟨v, ⟨l, hl, hv⟩, rfl⟩
  · unfold unionOfVariables
    simpa using h5
  · have hu : unionOfVariables ls = uniqueVars ls.flatten := rfl
    rw [hu]
    generalize hu' : uniqueVars ls.flatten = u at *
    unfold unionOfVariables
    have hfold : u.foldl uniqueStep [] = u := h5
    simp only [List.flatten_cons, List.flatten_nil, List.append_nil]
    unfold uniqueVars
    rw [List.foldl_append, hfold, uniqueFold_firstOcc]
    conv_rhs => rw [← List.append_nil u]
    congr 1
    rw [List.filter_eq_nil_iff]
    intro b hb
    rw [← uniqueVars_eq_firstOcc] at hb
    have : b ∈ u := uniqueVars_subset hb
    simpa using ⟨b, this, rfl⟩

/-- C20: the order of the lists does not matter for the IDs. -/
theorem unionOfVariables_comm (a b : List (Var R)) (i : ℕ) :
    i ∈ (unionOfVariables [a, b]).map (·.id) ↔ i ∈ (unionOfVariables [b, a]).map (·.id) := by
  rw [(unionOfVariables_spec [a, b]).1, (unionOfVariables_spec [b, a]).1]
  simp [or_comm]

/-- C20: `Unique` on ID lists returns the first occurrences, in order. -/
theorem uniqueIds_eq_firstOcc (l : List ℕ) : uniqueIds l = firstOcc (fun i => i) l := by
  have key : ∀ l acc : List ℕ, l.foldl uniqueIdStep acc =
      acc ++ (firstOcc (fun i => i) l).filter (fun b => decide (b ∉ acc)) := by
    intro l
    induction l with
    | nil => simp [firstOcc]
    | cons v l ih =>
      intro acc
      rw [List.foldl_cons, ih, firstOcc]
      unfold uniqueIdStep
      cases h : findEq v acc with
      | none =>
        have h1 := findEq_eq_none.mp h
        rw [List.filter_cons_of_pos (by simpa using h1), List.filter_filter, List.append_assoc,
          List.singleton_append]
        congr 2
        apply List.filter_congr
        intro b _
        rw [← Bool.decide_and]
        congr 1
        simp [not_or, and_comm]
      | some j =>
        have h1 : v ∈ acc := by
          by_contra hc
          rw [findEq_eq_none.mpr hc] at h
          cases h
        rw [List.filter_cons_of_neg (by simpa using h1), List.filter_filter]
        congr 1
        apply List.filter_congr
        intro b _
        by_cases hb : b = v
        · simp [hb, h1]
        · simp [hb]
  have := key l []
  simpa [uniqueIds] using this

/-- C20: `FindInSlice` returns the *last* index that matches (and `-1` exactly when there is none),
so its documented contract `xIn = sliceIn[index]` holds. -/
theorem findVar_last (x : Var R) (l : List (Var R)) :
    (findVar x l = none ↔ ∀ v ∈ l, v.id ≠ x.id) ∧
    ∀ i, findVar x l = some i → (∃ v, l[i]? = some v ∧ v.id = x.id) ∧
      ∀ j v, i < j → l[j]? = some v → v.id ≠ x.id := by
  constructor
  · rw [findVar_eq_none]
    simp
  · intro i hi
    refine ⟨findVar_some hi, ?_⟩
    induction l generalizing i with
    | nil => simp [findVar] at hi
    | cons y ys ih =>
      unfold findVar at hi
      cases h : findVar x ys with
      | none =>
        rw [h] at hi
        intro j v hj hv
        cases j with
        | zero => omega
        | succ j =>
          rw [List.getElem?_cons_succ] at hv
          intro hc
          exact findVar_eq_none.mp h (List.mem_map.mpr ⟨v, List.mem_of_getElem? hv, hc⟩)
      | some k =>
        rw [h] at hi
        obtain rfl : k + 1 = i := Option.some.inj hi
        intro j v hj hv
        cases j with
        | zero => omega
        | succ j =>
          rw [List.getElem?_cons_succ] at hv
          exact ih k h j v (by omega) hv

/-- Two variables with the same ID: the first is kept, although the structs differ. -/
example : uniqueVars [wx, wy, { wx with name := "other" }, wz, wy] = [wx, wy, wz] := by
  decide +kernel
example : uniqueVars [{ wx with name := "other" }, wx] = [{ wx with name := "other" }] := by
  decide +kernel
example : unionOfVariables [[wx, wy], [wy, wz], [wx]] = [wx, wy, wz] := by decide +kernel
example : findVar wx [wx, wy, wx] = some 2 := by decide +kernel
example : uniqueIds [3, 1, 3, 2, 1] = [3, 1, 2] := by decide +kernel

/-! ## C19 -/

section Struct
variable [GoNum R]

/-- C19: `Variables()` of a well-formed expression has one variable per ID, and lists exactly the
IDs written in the expression. -/
theorem variables_nodup {e : Scalar R} (he : e.Canon) :
    (e.variables.map (·.id)).Nodup ∧ (∀ v ∈ e.variables, e.Mentions v) ∧
    ∀ v, e.Mentions v → v.id ∈ e.variables.map (·.id) := by
  cases e with
  | k c => simp [Scalar.variables, Scalar.Mentions]
  | var v => simp [Scalar.variables, Scalar.Mentions]
  | mono m =>
    exact ⟨he.nodup, fun v hv => hv, fun v hv => List.mem_map.mpr ⟨v, hv, rfl⟩⟩
  | poly p =>
    refine ⟨uniqueVars_nodup _, ?_, ?_⟩
    · intro v hv
      have := uniqueVars_subset hv
      simpa [Scalar.Mentions] using this
    · rintro v ⟨m, hm, hv⟩
      show v.id ∈ (uniqueVars _).map (·.id)
      rw [uniqueVars_ids]
      exact List.mem_map.mpr ⟨v, List.mem_flatMap.mpr ⟨m, hm, hv⟩, rfl⟩

end Struct

section Value
variable [Field R] [LinearOrder R]

theorem mono_den_vars {m : Mono R} (hm : m.Canon) {i : ℕ} (hi : i ∈ m.den.vars) :
    i ∈ m.vars.map (·.id) := by
  unfold Mono.den at hi
  by_cases h0 : m.coeff = 0
  · simp [h0] at hi
  · rw [vars_monomial h0, hm.support, List.mem_toFinset] at hi
    exact hi

/-- C19: `Variables()` contains every variable the denoted polynomial depends on. -/
theorem variables_complete {e : Scalar R} (he : e.Canon) {i : ℕ} (hi : i ∈ e.den.vars) :
    i ∈ e.variables.map (·.id) := by
  cases e with
  | k c => simp at hi
  | var v => simpa [Scalar.variables] using hi
  | mono m => exact mono_den_vars he hi
  | poly p =>
    have key : ∀ l : List (Mono R), (∀ m ∈ l, m.Canon) → i ∈ (lden l).vars →
        ∃ m ∈ l, i ∈ m.vars.map (·.id) := by
      intro l
      induction l with
      | nil => simp
      | cons a l ih =>
        intro hl h
        rw [lden_cons] at h
        rcases Finset.mem_union.mp (vars_add_subset _ _ h) with h | h
        · exact ⟨a, by simp, mono_den_vars (hl a (by simp)) h⟩
        · obtain ⟨m, hm, h'⟩ := ih (fun m hm => hl m (by simp [hm])) h
          exact ⟨m, by simp [hm], h'⟩
    obtain ⟨m, hm, h⟩ := key p.monos he.all hi
    show i ∈ (uniqueVars _).map (·.id)
    rw [uniqueVars_ids]
    obtain ⟨v, hv, rfl⟩ := List.mem_map.mp h
    exact List.mem_map.mpr ⟨v, List.mem_flatMap.mpr ⟨m, hm, hv⟩, rfl⟩

/-- C19: hence two assignments that agree on `Variables()` give the same value. -/
theorem variables_determine_value {e : Scalar R} (he : e.Canon) {ρ σ : ℕ → R}
    (h : ∀ v ∈ e.variables, ρ v.id = σ v.id) : e.value ρ = e.value σ := by
  unfold Scalar.value
  apply eval₂Hom_congr' rfl _ rfl
  intro i hi _
  obtain ⟨v, hv, rfl⟩ := List.mem_map.mp (variables_complete he hi)
  exact h v hv

/-- C19: on simplified polynomials with flat terms the list is exact. -/
theorem variables_exact_partial {p : Poly R} (hp : p.Canon) (ht : (Scalar.poly p).TermsIn flat)
    (hs : p.simplify = .ok p) (i : ℕ) :
    i ∈ (Scalar.poly p).variables.map (·.id) ↔ i ∈ p.den.vars := by
  refine ⟨?_, fun h => variables_complete (e := .poly p) hp h⟩
  intro h
  have hg : Good (fun _ => True) flat (.poly p) := good_of (s := .poly p) hp ht
  have hnf := simplify_nf hg.1 hg.2 hs
  have h' : i ∈ (uniqueVars (p.monos.flatMap (·.vars))).map (·.id) := h
  rw [uniqueVars_ids] at h'
  obtain ⟨v, hv, rfl⟩ := List.mem_map.mp h'
  obtain ⟨m, hm, hvm⟩ := List.mem_flatMap.mp hv
  have hl : p.monos ≠ [kToMono 0] := by
    intro hc
    rw [hc, List.mem_singleton] at hm
    subst hm
    simp [kToMono] at hvm
  have hc := hnf.coeff_ne_zero hl hm
  rw [mem_vars_iff_mem_support]
  refine ⟨m.degs, ?_, ?_⟩
  · rw [mem_support_iff, Poly.den_eq, coeff_lden (hnf.degs_nodup (le_refl _)) hm]
    exact hc
  · rw [(hp.all m hm).support, List.mem_toFinset]
    exact List.mem_map.mpr ⟨v, hvm, rfl⟩

example : ((Scalar.poly ⟨[wm2 3 0 1 1 1, wm1 2 1 2, wm0 5]⟩).variables.map (·.id)) = [0, 1] := by
  decide +kernel
/-- The hypotheses of `variables_exact_partial` can be met: `5 + 3xy + 2y^2`. -/
example : Poly.simplify (⟨[wm0 5, wm2 3 0 1 1 1, wm1 2 1 2]⟩ : Poly ℚ) =
    .ok ⟨[wm0 5, wm2 3 0 1 1 1, wm1 2 1 2]⟩ := by decide +kernel

end Value

end Verif
