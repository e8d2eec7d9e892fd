import Verif.Lemmas.Mul

/-!
# Families of exponent vectors without clashes, and the bridge between `Good` and the specification
-/

set_option linter.unusedSectionVars false

namespace Verif

theorem RearrFree.mono {D D' : Set (ℕ →₀ ℕ)} (h : RearrFree D') (hs : D ⊆ D') : RearrFree D :=
  fun d hd d' hd' => h d (hs hd) d' (hs hd')

theorem Rearr.sum_eq {d d' : ℕ →₀ ℕ} (h : Rearr d d') :
    (d.sum fun _ e => e) = d'.sum fun _ e => e := by
  unfold Finsupp.sum Finset.sum
  rw [h.2]

/-- Flat exponent vectors do not clash. -/
theorem rearrFree_flat : RearrFree flat := by
  rintro d hd d' hd' ⟨h1, h2⟩
  ext i
  by_cases hi : i ∈ d.support
  · have hi' : i ∈ d'.support := h1 ▸ hi
    have hm : d i ∈ d'.support.val.map d' := by
      rw [← h2]
      exact Multiset.mem_map_of_mem _ hi
    obtain ⟨j, hj, he⟩ := Multiset.mem_map.mp hm
    rw [← he]
    exact hd' j hj i hi'
  · have hi' : i ∉ d'.support := h1 ▸ hi
    rw [Finsupp.notMem_support_iff] at hi hi'
    rw [hi, hi']

theorem le_degree (d : ℕ →₀ ℕ) (i : ℕ) : d i ≤ d.sum fun _ e => e := by
  by_cases hi : i ∈ d.support
  · exact Finset.single_le_sum (f := d) (fun _ _ => Nat.zero_le _) hi
  · rw [Finsupp.notMem_support_iff] at hi
    omega

theorem add_le_degree (d : ℕ →₀ ℕ) {i j : ℕ} (h : i ≠ j) : d i + d j ≤ d.sum fun _ e => e := by
  by_cases hi : i ∈ d.support
  · by_cases hj : j ∈ d.support
    · have : ({i, j} : Finset ℕ) ⊆ d.support := by
        intro k hk
        simp only [Finset.mem_insert, Finset.mem_singleton] at hk
        rcases hk with rfl | rfl
        · exact hi
        · exact hj
      have h2 := Finset.sum_le_sum_of_subset (f := d) this
      rw [Finset.sum_pair h] at h2
      exact h2
    · rw [Finsupp.notMem_support_iff] at hj
      have := le_degree d i
      omega
  · rw [Finsupp.notMem_support_iff] at hi
    have := le_degree d j
    omega

theorem degLE_two_flat : degLE 2 ⊆ flat := by
  intro d hd i hi j hj
  have hd' : (d.sum fun _ e => e) ≤ 2 := hd
  rw [Finsupp.mem_support_iff] at hi hj
  by_cases h : i = j
  · rw [h]
  · have := add_le_degree d h
    omega

theorem univ1_flat (x : ℕ) : univ1 x ⊆ flat := by
  intro d hd i hi j hj
  have h1 := Finset.mem_singleton.mp (hd hi)
  have h2 := Finset.mem_singleton.mp (hd hj)
  rw [h1, h2]

theorem multilin_flat : multilin ⊆ flat := by
  intro d hd i hi j hj
  rw [Finsupp.mem_support_iff] at hi hj
  have h1 : d i ≤ 1 := hd i
  have h2 : d j ≤ 1 := hd j
  omega

theorem rearrFree_degLE_two : RearrFree (degLE 2) := rearrFree_flat.mono degLE_two_flat
theorem rearrFree_univ1 (x : ℕ) : RearrFree (univ1 x) := rearrFree_flat.mono (univ1_flat x)
theorem rearrFree_multilin : RearrFree multilin := rearrFree_flat.mono multilin_flat

theorem degLE_mono {m n : ℕ} (h : m ≤ n) : degLE m ⊆ degLE n := fun _ hd => le_trans hd h

theorem degree_add (d d' : ℕ →₀ ℕ) :
    ((d + d').sum fun _ e => e) = (d.sum fun _ e => e) + d'.sum fun _ e => e :=
  Finsupp.sum_add_index' (fun _ => rfl) (fun _ _ _ => rfl)

theorem prodIn_degLE (m n : ℕ) : ProdIn (degLE m) (degLE n) (degLE (m + n)) := by
  refine ⟨degLE_mono (by omega), degLE_mono (by omega), ?_⟩
  intro d hd d' hd'
  show ((d + d').sum fun _ e => e) ≤ m + n
  rw [degree_add]
  exact Nat.add_le_add hd hd'

theorem prodIn_univ1 (x : ℕ) : ProdIn (univ1 x) (univ1 x) (univ1 x) :=
  ⟨subset_rfl, subset_rfl, fun _ hd _ hd' =>
    (Finsupp.support_add).trans (Finset.union_subset hd hd')⟩

theorem nsum_univ1 (x n : ℕ) : {d | NSum (univ1 x) n d} ⊆ univ1 x := by
  intro d hd
  induction hd with
  | one hd => exact hd
  | add _ hd ih => exact (prodIn_univ1 x).add _ ih _ hd

theorem nsum_degLE (m n : ℕ) : {d | NSum (degLE m) n d} ⊆ degLE (n * m) := by
  intro d hd
  induction hd with
  | one hd => exact degLE_mono (by rw [Nat.succ_mul]; omega) hd
  | add _ hd ih =>
    rw [Nat.succ_mul]
    exact (prodIn_degLE _ _).add _ ih _ hd

theorem nsum_univ (n : ℕ) : {d | NSum Set.univ n d} ⊆ (Set.univ : Set (ℕ →₀ ℕ)) :=
  Set.subset_univ _

theorem prodIn_univ : ProdIn Set.univ Set.univ (Set.univ : Set (ℕ →₀ ℕ)) :=
  ⟨subset_rfl, subset_rfl, fun _ _ _ _ => trivial⟩

/-! ## Bridge -/

section
variable {R : Type} [GoNum R]

theorem good_iff {P : Var R → Prop} {D : Set (ℕ →₀ ℕ)} {s : Scalar R} :
    Good P D s ↔ s.Canon ∧ s.TermsIn D ∧ ∀ v, s.Mentions v → P v := by
  cases s with
  | k c => simp [Good, Scalar.Canon, Scalar.TermsIn, Scalar.Mentions]
  | var v =>
    simp only [Good, Scalar.Canon, Scalar.TermsIn, Scalar.Mentions, forall_eq]
    tauto
  | mono m =>
    exact ⟨fun h => ⟨h.canon, h.degs, h.vars⟩, fun h => ⟨h.1, h.2.2, h.2.1⟩⟩
  | poly p =>
    constructor
    · rintro ⟨h1, h2⟩
      refine ⟨⟨h1, fun m hm => (h2 m hm).canon⟩, fun m hm => (h2 m hm).degs, ?_⟩
      rintro v ⟨m, hm, hv⟩
      exact (h2 m hm).vars v hv
    · rintro ⟨⟨h1, h2⟩, h3, h4⟩
      exact ⟨h1, fun m hm => ⟨h2 m hm, fun v hv => h4 v ⟨m, hm, hv⟩, h3 m hm⟩⟩

theorem Scalar.TermsIn.mono {D D' : Set (ℕ →₀ ℕ)} (h : D ⊆ D') {s : Scalar R}
    (hs : s.TermsIn D) : s.TermsIn D' := by
  cases s with
  | k c => trivial
  | var v => exact h hs
  | mono m => exact hs.imp id (fun x => h x)
  | poly p => exact fun m hm => (hs m hm).imp id (fun x => h x)

theorem Scalar.termsIn_univ (s : Scalar R) : s.TermsIn Set.univ := by
  cases s with
  | k c => trivial
  | var v => trivial
  | mono m => exact Or.inr trivial
  | poly p => exact fun _ _ => Or.inr trivial

theorem good_of {D : Set (ℕ →₀ ℕ)} {s : Scalar R} (h : s.Canon) (ht : s.TermsIn D) :
    Good (fun _ => True) D s := good_iff.mpr ⟨h, ht, fun _ _ => trivial⟩

theorem good_of_univ {s : Scalar R} (h : s.Canon) : Good (fun _ => True) Set.univ s :=
  good_of h s.termsIn_univ

theorem good_mentions {D : Set (ℕ →₀ ℕ)} {s : Scalar R} (h : s.Canon) (ht : s.TermsIn D)
    {Q : Var R → Prop} (hQ : ∀ v, s.Mentions v → Q v) : Good Q D s := good_iff.mpr ⟨h, ht, hQ⟩

end

end Verif
