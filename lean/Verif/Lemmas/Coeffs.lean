import Verif.Lemmas.NormalForm
import Verif.Lemmas.Families

/-!
# Coefficients of term lists
-/

set_option linter.unusedSectionVars false

namespace Verif

open MvPolynomial

variable {R : Type}

theorem Go.mapM_eq {α β : Type} {f : α → Go β} {g : α → β} {l : List α}
    (h : ∀ a ∈ l, f a = .ok (g a)) : l.mapM f = .ok (l.map g) := by
  induction l with
  | nil => rfl
  | cons a l ih =>
    rw [List.mapM_cons, h a (by simp), Go.ok_bind, ih (fun b hb => h b (by simp [hb])), Go.ok_bind]
    rfl

theorem findIdx?_getElem? {α : Type} (l : List α) (p : α → Bool) :
    (l.findIdx? p = none ∧ l.find? p = none) ∨
    ∃ i a, l.findIdx? p = some i ∧ l[i]? = some a ∧ l.find? p = some a := by
  induction l with
  | nil => simp
  | cons a l ih =>
    by_cases h : p a = true
    · right
      exact ⟨0, a, by simp [List.findIdx?_cons, h], by simp, by simp [h]⟩
    · rcases ih with ⟨h1, h2⟩ | ⟨i, b, h1, h2, h3⟩
      · left
        exact ⟨by simp [List.findIdx?_cons, h, h1], by simp [h, h2]⟩
      · right
        exact ⟨i + 1, b, by simp [List.findIdx?_cons, h, h1], by simpa using h2, by simp [h, h3]⟩

section Struct
variable [GoNum R]

theorem Mono.Canon.degs_eq_single {m : Mono R} (h : m.Canon) (i : ℕ) :
    m.degs = Finsupp.single i 1 ↔ m.exps = [1] ∧ m.vars.map (·.id) = [i] := by
  constructor
  · intro hd
    have hs : (m.vars.map (·.id)).toFinset = {i} := by
      rw [← h.support, hd, Finsupp.support_single _ one_ne_zero]
    have hids : m.vars.map (·.id) = [i] := by
      have hc : (m.vars.map (·.id)).length = 1 := by
        rw [← List.toFinset_card_of_nodup h.nodup, hs, Finset.card_singleton]
      obtain ⟨j, hj⟩ := List.length_eq_one_iff.mp hc
      rw [hj] at hs ⊢
      simpa using hs
    refine ⟨?_, hids⟩
    have hv := h.values
    rw [hd, Finsupp.support_single _ one_ne_zero] at hv
    simp only [Finset.singleton_val, Multiset.map_singleton, Finsupp.single_eq_same] at hv
    have hl : m.exps.length = 1 := by
      rw [h.len, ← List.length_map (f := (·.id)), hids, List.length_singleton]
    obtain ⟨e, he⟩ := List.length_eq_one_iff.mp hl
    rw [he] at hv ⊢
    have : e.toNat = 1 := by simpa [eq_comm] using hv
    rw [show e = 1 by omega]
  · rintro ⟨he, hv⟩
    rcases m with ⟨c, es, vs⟩
    simp only at he hv
    rcases vs with _ | ⟨w, _ | ⟨w', vs⟩⟩
    · simp at hv
    · subst he
      simp only [List.map_cons, List.map_nil, List.cons.injEq, and_true] at hv
      rw [Var.degs_one, hv]
      rfl
    · simp at hv

end Struct

section Value
variable [Field R] [LinearOrder R]

theorem coeff_lden_find {l : List (Mono R)} {d : ℕ →₀ ℕ} {q : Mono R → Bool}
    (hq : ∀ m ∈ l, q m = true ↔ m.degs = d)
    (h : l.Pairwise (fun a b => ¬ (a.degs = d ∧ b.degs = d))) :
    coeff d (lden l) = match l.find? q with
      | none => 0
      | some m => m.coeff := by
  induction l with
  | nil => simp
  | cons a l ih =>
    rw [List.pairwise_cons] at h
    have ih' := ih (fun m hm => hq m (by simp [hm])) h.2
    rw [lden_cons, coeff_add, Mono.den, coeff_monomial]
    by_cases ha : a.degs = d
    · have hz : coeff d (lden l) = 0 := by
        apply coeff_lden_notMem
        rintro hc
        obtain ⟨b, hb, hbd⟩ := List.mem_map.mp hc
        exact h.1 b hb ⟨ha, hbd⟩
      rw [if_pos ha, hz, List.find?_cons_of_pos ((hq a (by simp)).mpr ha), add_zero]
    · have hqa : ¬ q a = true := fun hc => ha ((hq a (by simp)).mp hc)
      rw [if_neg ha, zero_add, List.find?_cons_of_neg hqa, ih']

/-- An affine polynomial is determined by its constant and first-degree coefficients. -/
theorem affine_eq {f : MvPolynomial ℕ R} (hdeg : f.totalDegree ≤ 1) {ids : List ℕ}
    (hnd : ids.Nodup) (hv : ∀ i ∈ f.vars, i ∈ ids) :
    f = C (coeff 0 f) + (ids.map (fun i => C (coeff (Finsupp.single i 1) f) * X i)).sum := by
  have hsum : ∀ (ids : List ℕ), ids.Nodup → ∀ d, coeff d
      ((ids.map (fun i => C (coeff (Finsupp.single i 1) f) * X i)).sum) =
      if ∃ i ∈ ids, d = Finsupp.single i 1 then coeff d f else 0 := by
    intro ids
    induction ids with
    | nil => simp
    | cons j ids ih =>
      intro hnd d
      rw [List.nodup_cons] at hnd
      rw [List.map_cons, List.sum_cons, coeff_add, ih hnd.2, coeff_C_mul, coeff_X]
      by_cases hj : d = Finsupp.single j 1
      · rw [if_pos hj.symm, if_neg, if_pos ⟨j, by simp, hj⟩, hj, mul_one, add_zero]
        rintro ⟨i, hi, h⟩
        rw [hj] at h
        have := (Finsupp.single_left_inj one_ne_zero).mp h
        exact hnd.1 (this ▸ hi)
      · rw [if_neg (fun h => hj h.symm), mul_zero, zero_add]
        simp [hj]
  ext d
  rw [coeff_add, hsum ids hnd, coeff_C]
  by_cases h0 : d = 0
  · subst h0
    rw [if_pos rfl, if_neg, add_zero]
    rintro ⟨i, -, h⟩
    have := congrArg (fun g => g i) h
    simp at this
  · rw [if_neg (fun h => h0 h.symm), zero_add]
    split
    · rfl
    · next hne =>
      by_contra hc
      have hmem : d ∈ f.support := mem_support_iff.mpr hc
      have hle := (le_totalDegree hmem).trans hdeg
      -- `d` is a single
      obtain ⟨i, hi⟩ : ∃ i, i ∈ d.support := by
        by_contra hno
        exact h0 (Finsupp.support_eq_empty.mp (Finset.eq_empty_of_forall_notMem
          (fun i hi => hno ⟨i, hi⟩)))
      have hi0 : 0 < d i := Nat.pos_of_ne_zero (Finsupp.mem_support_iff.mp hi)
      have hd : d = Finsupp.single i 1 := by
        have hsplit : (d.sum fun _ e => e) = d i + ∑ j ∈ d.support.erase i, d j := by
          unfold Finsupp.sum
          rw [← Finset.add_sum_erase _ _ hi]
        ext j
        by_cases hj : j = i
        · subst hj
          rw [Finsupp.single_eq_same]
          omega
        · rw [Finsupp.single_eq_of_ne hj]
          by_contra hdj
          have hjm : j ∈ d.support.erase i :=
            Finset.mem_erase.mpr ⟨hj, Finsupp.mem_support_iff.mpr hdj⟩
          have := Finset.single_le_sum (f := fun j => d j) (fun _ _ => Nat.zero_le _) hjm
          omega
      exact hne ⟨i, hv i ((mem_vars_iff_mem_support _).mpr ⟨d, hmem, hi⟩), hd⟩

end Value

end Verif
