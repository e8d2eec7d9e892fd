import Mathlib.Algebra.MvPolynomial.Monad
import Verif.Lemmas.Coeffs

/-!
# Substitution folds
-/

set_option linter.unusedSectionVars false

namespace Verif

open MvPolynomial

variable {R : Type}

/-! ## Sets of exponent vectors -/

theorem sumsUpTo_zero (D : Set (ℕ →₀ ℕ)) (n : ℕ) : SumsUpTo D n 0 := ⟨[], by simp, by simp, rfl⟩

theorem nsum_sumsUpTo {D : Set (ℕ →₀ ℕ)} {n : ℕ} {d : ℕ →₀ ℕ} (h : NSum D n d) :
    SumsUpTo D n d := by
  induction h with
  | one hd => exact ⟨[_], by simp, by simpa using hd, by simp⟩
  | add _ hd ih =>
    obtain ⟨l, h1, h2, rfl⟩ := ih
    refine ⟨l ++ [_], by simpa using h1, ?_, by rw [List.sum_append, List.sum_singleton]⟩
    intro x hx
    rcases List.mem_append.mp hx with hx | hx
    · exact h2 x hx
    · rw [List.mem_singleton] at hx; exact hx ▸ hd

/-- Exponent vectors of products of powers, along a list of factors. -/
def PSet (T : ℕ → Set (ℕ →₀ ℕ)) (l : List (Var R × Int)) : Set (ℕ →₀ ℕ) :=
  {d | ∃ ds, List.Forall₂ (fun ve d => SumsUpTo (T ve.1.id) ve.2.toNat d) l ds ∧ ds.sum = d}

theorem zero_mem_PSet (T : ℕ → Set (ℕ →₀ ℕ)) (l : List (Var R × Int)) : 0 ∈ PSet T l := by
  refine ⟨l.map (fun _ => 0), ?_, by simp⟩
  rw [List.forall₂_map_right_iff, List.forall₂_same]
  exact fun _ _ => sumsUpTo_zero _ _

theorem add_mem_PSet {T : ℕ → Set (ℕ →₀ ℕ)} {l l' : List (Var R × Int)} {d d' : ℕ →₀ ℕ}
    (h : d ∈ PSet T l) (h' : d' ∈ PSet T l') : d + d' ∈ PSet T (l ++ l') := by
  obtain ⟨ds, h1, rfl⟩ := h
  obtain ⟨ds', h2, rfl⟩ := h'
  exact ⟨ds ++ ds', List.rel_append h1 h2, by simp⟩

theorem PSet_left (T : ℕ → Set (ℕ →₀ ℕ)) (l l' : List (Var R × Int)) :
    PSet T l ⊆ PSet T (l ++ l') := fun d hd => by
  simpa using add_mem_PSet hd (zero_mem_PSet T l')

theorem PSet_right (T : ℕ → Set (ℕ →₀ ℕ)) (l l' : List (Var R × Int)) :
    PSet T l' ⊆ PSet T (l ++ l') := fun d hd => by
  simpa using add_mem_PSet (zero_mem_PSet T l) hd

theorem nsum_PSet (T : ℕ → Set (ℕ →₀ ℕ)) (ve : Var R × Int) :
    {d | NSum (T ve.1.id) ve.2.toNat d} ⊆ PSet T [ve] := fun d hd =>
  ⟨[d], by simpa using nsum_sumsUpTo hd, by simp⟩

theorem prodIn_PSet (T : ℕ → Set (ℕ →₀ ℕ)) (l : List (Var R × Int)) (ve : Var R × Int) :
    ProdIn (PSet T l) {d | NSum (T ve.1.id) ve.2.toNat d} (PSet T (l ++ [ve])) :=
  ⟨PSet_left _ _ _, fun _ hd => PSet_right _ _ _ (nsum_PSet T ve hd),
    fun _ hd _ hd' => add_mem_PSet hd (nsum_PSet T ve hd')⟩

theorem PSet_subst [GoNum R] (T : ℕ → Set (ℕ →₀ ℕ)) {m : Mono R} (hm : m.Canon) :
    PSet T (m.vars.zip m.exps) ⊆ SubstTerms T m.degs := by
  have hsup : ∀ l : List (Var R × Int), (l.map (fun ve => ve.1.id)).Nodup → ∀ ds,
      List.Forall₂ (fun ve d => SumsUpTo (T ve.1.id) ve.2.toNat d) l ds →
      ∃ g : ℕ → ℕ →₀ ℕ, (∀ ve ∈ l, SumsUpTo (T ve.1.id) ve.2.toNat (g ve.1.id)) ∧
        ∑ i ∈ (l.map (fun ve => ve.1.id)).toFinset, g i = ds.sum := by
    intro l hnd ds h
    induction h with
    | nil => exact ⟨fun _ => 0, by simp, by simp⟩
    | @cons ve d l ds hd _ ih =>
      rw [List.map_cons, List.nodup_cons] at hnd
      obtain ⟨g, h1, h2⟩ := ih hnd.2
      refine ⟨Function.update g ve.1.id d, ?_, ?_⟩
      · intro we hwe
        rcases List.mem_cons.mp hwe with rfl | hwe
        · rw [Function.update_self]; exact hd
        · have hne : we.1.id ≠ ve.1.id := by
            intro hc
            exact hnd.1 (List.mem_map.mpr ⟨we, hwe, hc⟩)
          rw [Function.update_of_ne hne]
          exact h1 we hwe
      · rw [List.map_cons, List.toFinset_cons, Finset.sum_insert (by simpa using hnd.1),
          Function.update_self, List.sum_cons, ← h2]
        congr 1
        apply Finset.sum_congr rfl
        intro i hi
        rw [Function.update_of_ne]
        rintro rfl
        exact hnd.1 (List.mem_toFinset.mp hi)
  rintro d ⟨ds, h1, rfl⟩
  obtain ⟨g, h2, h3⟩ := hsup _ hm.keys_nodup ds h1
  refine ⟨g, ?_, ?_⟩
  · intro i hi
    rw [hm.support, List.mem_toFinset] at hi
    obtain ⟨v, hv, rfl⟩ := List.mem_map.mp hi
    obtain ⟨e, -, hve⟩ := mem_zip_left hm.len hv
    rw [hm.degs_apply hve]
    exact h2 (v, e) hve
  · rw [hm.support, ← zip_keys hm.len, h3]

theorem degs_mem_PSet {T : ℕ → Set (ℕ →₀ ℕ)} {m : Mono R}
    (hT : ∀ v ∈ m.vars, Finsupp.single v.id 1 ∈ T v.id) :
    m.degs ∈ PSet T (m.vars.zip m.exps) := by
  refine ⟨(m.vars.zip m.exps).map (fun ve => Finsupp.single ve.1.id ve.2.toNat), ?_, rfl⟩
  rw [List.forall₂_map_right_iff, List.forall₂_same]
  rintro ⟨v, e⟩ hve
  have hv : v ∈ m.vars := (List.of_mem_zip hve).1
  refine ⟨List.replicate e.toNat (Finsupp.single v.id 1), by simp, ?_, ?_⟩
  · intro x hx
    rw [List.eq_of_mem_replicate hx]
    exact hT v hv
  · rw [List.sum_replicate]
    simp

/-! ## The fold of `Monomial.Substitute` and `Monomial.SubstituteAccordingTo` -/

/-- Loop body shared by the two functions. -/
def subStep [GoNum R] (f : Var R → Go (Scalar R)) (prod : Scalar R) (ve : Var R × Int) :
    Go (Scalar R) := do
  let sub ← f ve.1
  let pw ← sub.power ve.2
  prod.mul pw

section Struct
variable [GoNum R]

theorem subFold_good {P : Var R → Prop} {f : Var R → Go (Scalar R)} {m : Mono R} (hm : m.Canon)
    (hf : ∀ v ∈ m.vars, Go.Ok (f v) (Good P Set.univ)) (c : R) :
    Go.Ok ((m.vars.zip m.exps).foldlM (subStep f) (.k c)) (Good P Set.univ) := by
  apply Go.foldlM_ok
  · exact trivial
  · rintro acc ⟨v, e⟩ hve hacc
    unfold subStep
    have he : 0 ≤ e := (hm.pos e (List.of_mem_zip hve).2).le
    refine (hf v (List.of_mem_zip hve).1).bind ?_
    intro s hs
    refine (Scalar.power_good hs he).bind ?_
    intro pw hpw
    exact Scalar.mul_good prodIn_univ hacc (hpw.weaken (fun _ h => h) (Set.subset_univ _))

end Struct

section Value
variable [Field R] [LinearOrder R]

theorem subFold_den {P : Var R → Prop} {f : Var R → Go (Scalar R)} {T : ℕ → Set (ℕ →₀ ℕ)}
    {φ : ℕ → MvPolynomial ℕ R} {m : Mono R} (hm : m.Canon)
    (hf : ∀ v ∈ m.vars, Go.Ok (f v) (GoodDen P (T v.id) (φ v.id)))
    (hD : RearrFree (PSet T (m.vars.zip m.exps))) (c : R) :
    Go.Ok ((m.vars.zip m.exps).foldlM (subStep f) (.k c))
      (GoodDen P (PSet T (m.vars.zip m.exps))
        (C c * ((m.vars.zip m.exps).map (fun ve => φ ve.1.id ^ ve.2.toNat)).prod)) := by
  apply Go.foldlM_ok' (subStep f) (fun pre => GoodDen P (PSet T pre)
    (C c * (pre.map (fun ve => φ ve.1.id ^ ve.2.toNat)).prod))
  · exact ⟨trivial, by simp⟩
  · rintro pre ⟨v, e⟩ acc ⟨post, hpost⟩ ⟨ga, da⟩
    have hve : (v, e) ∈ m.vars.zip m.exps := by rw [hpost]; simp
    have he : 0 ≤ e := (hm.pos e (List.of_mem_zip hve).2).le
    have hD' : RearrFree (PSet T (pre ++ [(v, e)])) := by
      refine hD.mono ?_
      rw [hpost, show pre ++ (v, e) :: post = (pre ++ [(v, e)]) ++ post by simp]
      exact PSet_left _ _ _
    unfold subStep
    refine (hf v (List.of_mem_zip hve).1).bind ?_
    rintro s ⟨gs, ds⟩
    have hN : RearrFree {d | NSum (T v.id) e.toNat d} :=
      hD'.mono ((nsum_PSet T (v, e)).trans (PSet_right _ _ _))
    refine (Scalar.power_den gs he hN).bind ?_
    rintro pw ⟨gp, dp⟩
    refine (Scalar.mul_den (prodIn_PSet T pre (v, e)) hD' ga gp).mono ?_
    rintro r ⟨gr, dr⟩
    refine ⟨gr, ?_⟩
    rw [dr, da, dp, ds, List.map_append, List.prod_append]
    simp [mul_assoc]

/-- The same when no factor is replaced by a polynomial: no condition on the terms. -/
theorem subFold_nonpoly {f : Var R → Go (Scalar R)} {φ : ℕ → MvPolynomial ℕ R} {m : Mono R}
    (hm : m.Canon) (hf : ∀ v ∈ m.vars, Go.Ok (f v) (NonPolyDen (φ v.id))) (c : R) :
    Go.Ok ((m.vars.zip m.exps).foldlM (subStep f) (.k c))
      (NonPolyDen (C c * ((m.vars.zip m.exps).map (fun ve => φ ve.1.id ^ ve.2.toNat)).prod)) := by
  apply Go.foldlM_ok' (subStep f) (fun pre => NonPolyDen
    (C c * (pre.map (fun ve => φ ve.1.id ^ ve.2.toNat)).prod))
  · exact ⟨trivial, by simp, by simp⟩
  · rintro pre ⟨v, e⟩ acc ⟨post, hpost⟩ ⟨ga, na, da⟩
    have hve : (v, e) ∈ m.vars.zip m.exps := by rw [hpost]; simp
    have he : 0 ≤ e := (hm.pos e (List.of_mem_zip hve).2).le
    unfold subStep
    refine (hf v (List.of_mem_zip hve).1).bind ?_
    rintro s ⟨gs, ns, ds⟩
    refine (Scalar.power_den_nonpoly gs ns he).bind ?_
    rintro pw ⟨gp, np, dp⟩
    refine (Scalar.mul_den_nonpoly ga gp na np).mono ?_
    rintro r ⟨gr, nr, dr⟩
    refine ⟨gr, nr, ?_⟩
    rw [dr, da, dp, ds, List.map_append, List.prod_append]
    simp [mul_assoc]

theorem bind₁_mono (φ : ℕ → MvPolynomial ℕ R) (m : Mono R) :
    bind₁ φ m.den =
      C m.coeff * ((m.vars.zip m.exps).map (fun ve => φ ve.1.id ^ ve.2.toNat)).prod := by
  rw [Mono.den_eq_prod, map_mul, bind₁_C_right, map_list_prod, List.map_map]
  congr 3
  funext ve
  simp

/-- Sum of the images of the terms. -/
theorem sumFold_den {P : Var R → Prop} {D : Set (ℕ →₀ ℕ)} (hD : RearrFree D)
    {g : Mono R → Go (Scalar R)} {φ : ℕ → MvPolynomial ℕ R} {l : List (Mono R)}
    (hg : ∀ m ∈ l, Go.Ok (g m) (GoodDen P D (bind₁ φ m.den))) :
    Go.Ok (l.foldlM (fun acc m => do
      let t ← g m
      acc.plus t) (Scalar.k GoNum.zero)) (GoodDen P D (bind₁ φ (lden l))) := by
  apply Go.foldlM_ok' _ (fun pre => GoodDen P D (bind₁ φ (lden pre)))
  · exact ⟨trivial, by simp⟩
  · rintro pre m acc ⟨post, hpost⟩ ⟨ga, da⟩
    refine (hg m (by rw [hpost]; simp)).bind ?_
    rintro t ⟨gt, dt⟩
    refine (Scalar.plus_den hD ga gt).mono ?_
    rintro r ⟨gr, dr⟩
    exact ⟨gr, by rw [dr, da, dt]; simp⟩

end Value

section Struct
variable [GoNum R]

theorem sumFold_good {P : Var R → Prop} {D : Set (ℕ →₀ ℕ)}
    {g : Mono R → Go (Scalar R)} {l : List (Mono R)}
    (hg : ∀ m ∈ l, Go.Ok (g m) (Good P D)) :
    Go.Ok (l.foldlM (fun acc m => do
      let t ← g m
      acc.plus t) (Scalar.k GoNum.zero)) (Good P D) := by
  apply Go.foldlM_ok
  · exact trivial
  · intro acc m hm hacc
    refine (hg m hm).bind ?_
    intro t ht
    exact Scalar.plus_good hacc ht

end Struct

end Verif
