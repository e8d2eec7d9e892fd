import Verif.Lemmas.Modulo
import Verif.Props.Constr
import Mathlib.Tactic.LinearCombination

/-!
# C57: with 0/1 variables scalar arithmetic is exact

The properties C01 to C06, C12, C13, C34, C35 and C41 are false in general because terms which are
rearrangements of one another are collected.  At an assignment where the variables take at most one
nonzero value, in particular at every 0/1 assignment, such terms have equal values: everything is exact
there, for all well-formed operands, and such assignments are the only ones.
-/

set_option linter.unusedSectionVars false

namespace Verif

open MvPolynomial

variable {R : Type}

/-- The IDs of the variables written in `e`. -/
def Scalar.IDs (e : Scalar R) : Set ℕ := {i | ∃ w, e.Mentions w ∧ w.id = i}

/-- The variables with ID in `V` take at most one value other than zero. -/
def OneNonzero [Zero R] (ρ : ℕ → R) (V : Set ℕ) : Prop :=
  ∀ i ∈ V, ∀ j ∈ V, ρ i ≠ 0 → ρ j ≠ 0 → ρ i = ρ j

/-- The variables with ID in `V` have the values 0 and 1 only. -/
def Binary [Zero R] [One R] (ρ : ℕ → R) (V : Set ℕ) : Prop := ∀ i ∈ V, ρ i = 0 ∨ ρ i = 1

theorem Binary.oneNonzero [Zero R] [One R] {ρ : ℕ → R} {V : Set ℕ} (h : Binary ρ V) :
    OneNonzero ρ V := fun i hi j hj h1 h2 => by
  rcases h i hi with h3 | h3
  · exact absurd h3 h1
  · rcases h j hj with h4 | h4
    · exact absurd h4 h2
    · rw [h3, h4]

theorem OneNonzero.mono [Zero R] {ρ : ℕ → R} {V W : Set ℕ} (h : OneNonzero ρ V) (hW : W ⊆ V) :
    OneNonzero ρ W := fun i hi j hj => h i (hW hi) j (hW hj)

/-! ## Terms over a set of variables -/

/-- Exponent vectors of terms in the variables `V`. -/
def overV (V : Set ℕ) : Set (ℕ →₀ ℕ) := {d | ∀ i ∈ d.support, i ∈ V}

theorem add_overV {V : Set ℕ} {d d' : ℕ →₀ ℕ} (h : d ∈ overV V) (h' : d' ∈ overV V) :
    d + d' ∈ overV V := fun i hi => by
  rcases Finset.mem_union.mp (Finsupp.support_add hi) with hi | hi
  · exact h i hi
  · exact h' i hi

theorem prodIn_overV (V : Set ℕ) : ProdIn (overV V) (overV V) (overV V) :=
  ⟨subset_rfl, subset_rfl, fun _ h _ h' => add_overV h h'⟩

theorem sum_overV {V : Set ℕ} {l : List (ℕ →₀ ℕ)} (h : ∀ d ∈ l, d ∈ overV V) : l.sum ∈ overV V := by
  induction l with
  | nil => exact fun i hi => by simp at hi
  | cons a l ih =>
    rw [List.sum_cons]
    exact add_overV (h a (by simp)) (ih fun d hd => h d (by simp [hd]))

theorem nsum_overV {V : Set ℕ} {n : ℕ} : {d | NSum (overV V) n d} ⊆ overV V := fun d hd => by
  obtain ⟨l, -, h, rfl⟩ := nsum_sumsUpTo hd
  exact sum_overV h

theorem PSet_overV {V : Set ℕ} {l : List (Var R × Int)} : PSet (fun _ => overV V) l ⊆ overV V := by
  rintro d ⟨ds, h, rfl⟩
  refine sum_overV fun d hd => ?_
  induction h with
  | nil => simp at hd
  | cons h _ ih =>
    rcases List.mem_cons.mp hd with rfl | hd
    · obtain ⟨l, -, h2, rfl⟩ := h
      exact sum_overV h2
    · exact ih hd

theorem single_overV {V : Set ℕ} {i : ℕ} (h : i ∈ V) : Finsupp.single i 1 ∈ overV V := fun j hj => by
  rw [Finsupp.support_single _ one_ne_zero, Finset.mem_singleton] at hj
  exact hj ▸ h

theorem degs_overV [GoNum R] {V : Set ℕ} {m : Mono R} (hm : m.Canon) (h : ∀ w ∈ m.vars, w.id ∈ V) :
    m.degs ∈ overV V := fun i hi => by
  rw [hm.support, List.mem_toFinset] at hi
  obtain ⟨w, hw, rfl⟩ := List.mem_map.mp hi
  exact h w hw

theorem good_overV [GoNum R] {P : Var R → Prop} {V : Set ℕ} {e : Scalar R} (he : e.Canon)
    (hP : ∀ w, e.Mentions w → P w) (hV : e.IDs ⊆ V) : Good P (overV V) e := by
  refine good_mentions he ?_ hP
  have key : ∀ w, e.Mentions w → w.id ∈ V := fun w hw => hV ⟨w, hw, rfl⟩
  cases e with
  | k c => trivial
  | var v => exact single_overV (key v rfl)
  | mono m => exact Or.inr (degs_overV he fun w hw => key w hw)
  | poly p => exact fun m hm => Or.inr (degs_overV (Poly.Canon.all he m hm) fun w hw => key w ⟨m, hm, hw⟩)

theorem ids_of_good [GoNum R] {P : Var R → Prop} {D : Set (ℕ →₀ ℕ)} {V : Set ℕ} {e : Scalar R}
    (he : Good P D e) (hP : ∀ w, P w → w.id ∈ V) : e.IDs ⊆ V := by
  rintro i ⟨w, hw, rfl⟩
  exact hP w ((good_iff.mp he).2.2 w hw)

section Value
variable [Field R] [LinearOrder R] {ρ : ℕ → R} {V : Set ℕ}

/-- Evaluation does not distinguish rearranged terms when there is one nonzero value. -/
theorem OneNonzero.resp (h : OneNonzero ρ V) : Resp (eval ρ) (overV V) := by
  intro d hd d' hd' hr c
  rw [eval_monomial, eval_monomial]
  congr 1
  unfold Finsupp.prod
  by_cases h0 : ∃ i ∈ d.support, ρ i = 0
  · obtain ⟨i, hi, h0⟩ := h0
    have hi' : i ∈ d'.support := hr.1 ▸ hi
    rw [Finset.prod_eq_zero hi (by simp only; rw [h0, zero_pow (Finsupp.mem_support_iff.mp hi)]),
      Finset.prod_eq_zero hi' (by simp only; rw [h0, zero_pow (Finsupp.mem_support_iff.mp hi')])]
  · push Not at h0
    by_cases he : d.support = ∅
    · rw [← hr.1, he]
      simp
    · obtain ⟨j, hj⟩ := Finset.nonempty_iff_ne_empty.mpr he
      have hall : ∀ i ∈ d.support, ρ i = ρ j := fun i hi =>
        h i (hd i hi) j (hd j hj) (h0 i hi) (h0 j hj)
      have e1 : ∏ i ∈ d.support, ρ i ^ d i = ∏ i ∈ d.support, ρ j ^ d i :=
        Finset.prod_congr rfl fun i hi => by rw [hall i hi]
      have e2 : ∏ i ∈ d'.support, ρ i ^ d' i = ∏ i ∈ d'.support, ρ j ^ d' i :=
        Finset.prod_congr rfl fun i hi => by rw [hall i (hr.1 ▸ hi)]
      rw [e1, e2, Finset.prod_pow_eq_pow_sum, Finset.prod_pow_eq_pow_sum]
      congr 1
      exact congrArg Multiset.sum hr.2

/-- The pattern of the theorems below. -/
private theorem use {P : Var R → Prop} {x : Go (Scalar R)} {t u : R}
    (h : Go.Ok x (GoodIm (eval ρ) P (overV V) t)) (htu : t = u) :
    ∃ r, x = .ok r ∧ r.Canon ∧ r.value ρ = u := by
  obtain ⟨r, h1, h2, h3⟩ := h
  exact ⟨r, h1, (good_iff.mp h2).1, h3.trans htu⟩

private theorem g {e : Scalar R} (he : e.Canon) (hV : e.IDs ⊆ V) : Good (fun _ => True) (overV V) e :=
  good_overV he (fun _ _ => trivial) hV

variable {a b : Scalar R}

/-- C57: `Plus` of any two well-formed scalars is exact where the variables have one nonzero value. -/
theorem plus_one_nonzero (ha : a.Canon) (hb : b.Canon) (h : OneNonzero ρ (a.IDs ∪ b.IDs)) :
    ∃ r, a.plus b = .ok r ∧ r.Canon ∧ r.value ρ = a.value ρ + b.value ρ :=
  use (Scalar.plus_im h.resp (g ha Set.subset_union_left) (g hb Set.subset_union_right)) (map_add _ _ _)

/-- C57: `Minus`. -/
theorem minus_one_nonzero (ha : a.Canon) (hb : b.Canon) (h : OneNonzero ρ (a.IDs ∪ b.IDs)) :
    ∃ r, a.minus b = .ok r ∧ r.Canon ∧ r.value ρ = a.value ρ - b.value ρ :=
  use (Scalar.minus_im h.resp (g ha Set.subset_union_left) (g hb Set.subset_union_right)) (map_sub _ _ _)

/-- C57: `Multiply`. -/
theorem mul_one_nonzero (ha : a.Canon) (hb : b.Canon) (h : OneNonzero ρ (a.IDs ∪ b.IDs)) :
    ∃ r, a.mul b = .ok r ∧ r.Canon ∧ r.value ρ = a.value ρ * b.value ρ :=
  use (Scalar.mul_im (prodIn_overV _) h.resp (g ha Set.subset_union_left) (g hb Set.subset_union_right))
    (map_mul _ _ _)

/-- C57: `Power` with an exponent that is not negative. -/
theorem power_one_nonzero (ha : a.Canon) (h : OneNonzero ρ a.IDs) {n : Int} (hn : 0 ≤ n) :
    ∃ r, a.power n = .ok r ∧ r.Canon ∧ r.value ρ = a.value ρ ^ n.toNat :=
  use (V := a.IDs) ((Scalar.power_im (g ha subset_rfl) hn (h.resp.mono nsum_overV)).mono fun _ hr =>
    ⟨hr.1.weaken (fun _ h => h) nsum_overV, hr.2⟩) (map_pow _ _ _)

/-- C57: `AsSimplifiedExpression`. -/
theorem asSimplified_one_nonzero (ha : a.Canon) (h : OneNonzero ρ a.IDs) :
    ∃ r, a.asSimplified = .ok r ∧ r.Canon ∧ r.value ρ = a.value ρ :=
  use (Scalar.asSimplified_im h.resp ⟨g ha subset_rfl, rfl⟩) rfl

theorem eval_hom (ρ θ : ℕ → R) (f : MvPolynomial ℕ R) :
    eval₂Hom ((eval ρ).comp C) θ f = eval θ f := by
  have : (eval ρ).comp (C : R →+* MvPolynomial ℕ R) = RingHom.id R := by
    ext x
    simp
  rw [this]
  rfl

/-- C57: `Substitute` of any well-formed scalar into any other.  `V` are the IDs that may remain. -/
theorem substitute_one_nonzero {e s : Scalar R} {v : Var R} (he : e.Canon) (hv : v.OK) (hs : s.Canon)
    (henv : SameEnv v e) (h : OneNonzero ρ (e.IDs \ {v.id} ∪ s.IDs)) :
    ∃ r, e.substitute v s = .ok r ∧ r.Canon ∧
      r.value ρ = e.value (Function.update ρ v.id (s.value ρ)) := by
  have gs : Good (fun _ => True) (overV (e.IDs \ {v.id} ∪ s.IDs)) s := g hs Set.subset_union_right
  have hsc := gs.check
  have hin : ∀ w, e.Mentions w → w.id ≠ v.id → w.id ∈ e.IDs \ {v.id} ∪ s.IDs := fun w hw hne =>
    Or.inl ⟨⟨w, hw, rfl⟩, hne⟩
  generalize e.IDs \ {v.id} ∪ s.IDs = V at *
  have hvar : ∀ w : Var R, w.OK → e.Mentions w → Go.Ok (w.substitute v s)
      (GoodIm (eval ρ) (fun _ => True) (overV V) (Function.update ρ v.id (s.value ρ) w.id)) := by
    intro w hw hwe
    rw [var_substitute_eq hw hv hsc]
    refine ⟨_, rfl, ?_⟩
    by_cases hi : w.id = v.id
    · rw [if_pos (And.intro hi (henv w hwe hi)), hi, Function.update_self]
      exact ⟨gs, rfl⟩
    · rw [if_neg (show ¬ (w.id = v.id ∧ w.env = v.env) from fun hc => hi hc.1),
        Function.update_of_ne hi]
      exact ⟨⟨hw, trivial, single_overV (hin w hwe hi)⟩, by simp⟩
  have hmono : ∀ m : Mono R, m.Canon → (∀ w ∈ m.vars, e.Mentions w) →
      Go.Ok (m.substitute v s) (GoodIm (eval ρ) (fun _ => True) (overV V)
        (eval₂Hom ((eval ρ).comp C) (Function.update ρ v.id (s.value ρ)) m.den)) := by
    intro m hm hme
    rw [mono_substitute_eq hm hv hsc]
    split
    · rw [← imMono_eq]
      refine (subFold_im (T := fun _ => overV V) hm (fun w hw => hvar w (hm.ok w hw) (hme w hw))
        (h.resp.mono PSet_overV) _).mono fun r hr => ⟨hr.1.weaken (fun _ h => h) PSet_overV, hr.2⟩
    · next hno =>
      have hne : ∀ w ∈ m.vars, w.id ≠ v.id := fun w hw hc => hno (hc ▸ List.mem_map.mpr ⟨w, hw, rfl⟩)
      refine ⟨_, rfl, ⟨hm, fun _ _ => trivial,
        Or.inr (degs_overV hm fun w hw => hin w (hme w hw) (hne w hw))⟩, ?_⟩
      rw [← imMono_eq, Scalar.den_mono, Mono.den_eq_prod]
      unfold imMono
      rw [map_mul, map_list_prod, List.map_map]
      congr 2
      apply List.map_congr_left
      rintro ⟨w, x⟩ hwe
      simp [Function.update_of_ne (hne w (List.of_mem_zip hwe).1)]
  refine use (P := fun _ => True) (V := V) ?_ (eval_hom ρ (Function.update ρ v.id (s.value ρ)) e.den)
  cases e with
  | k c => exact ⟨_, rfl, trivial, by simp⟩
  | var w => exact (hvar w he rfl).mono fun r hr => ⟨hr.1, by rw [hr.2]; simp⟩
  | mono m => exact hmono m he fun w hw => hw
  | poly p =>
    have hp : p.Canon := he
    show Go.Ok (p.substitute v s) _
    unfold Poly.substitute
    rw [show p.check = .ok () from Good.check (s := .poly p) (good_of_univ (s := .poly p) hp), hv.check,
      hsc, Go.ok_bind, Go.ok_bind, Go.ok_bind]
    refine (sumFold_im h.resp fun m hm => hmono m (hp.all m hm) fun w hw => ⟨m, hm, hw⟩).bind ?_
    exact fun r hr => Scalar.asSimplified_im h.resp hr

/-- The values after a simultaneous substitution: that of the replacement for a mapped variable, the old
one for every other. -/
def AfterMap (sm : SubMap R) (e : Scalar R) (ρ θ : ℕ → R) : Prop :=
  ∀ w, e.Mentions w → (∀ s, (w, s) ∈ sm → θ w.id = s.value ρ) ∧ ((∀ s, (w, s) ∉ sm) → θ w.id = ρ w.id)

/-- The IDs that remain after a simultaneous substitution. -/
def Scalar.IDsAfter (e : Scalar R) (sm : SubMap R) : Set ℕ :=
  {i | ∃ w, e.Mentions w ∧ ((∃ s, (w, s) ∈ sm ∧ i ∈ s.IDs) ∨ (∀ s, (w, s) ∉ sm) ∧ w.id = i)}

/-- C57: `SubstituteAccordingTo` with any map to well-formed scalars. -/
theorem substMap_one_nonzero {e : Scalar R} {sm : SubMap R} {θ : ℕ → R} (he : e.Canon)
    (hsm : ∀ kv ∈ sm, kv.1.OK ∧ kv.2.Canon) (hk : (sm.map (·.1)).Nodup) (hθ : AfterMap sm e ρ θ)
    (h : OneNonzero ρ (e.IDsAfter sm)) :
    ∃ r, e.substMap sm = .ok r ∧ r.Canon ∧ r.value ρ = e.value θ := by
  have hin1 : ∀ w s, e.Mentions w → (w, s) ∈ sm → s.IDs ⊆ e.IDsAfter sm := fun w s hw hs i hi =>
    ⟨w, hw, Or.inl ⟨s, hs, hi⟩⟩
  have hin2 : ∀ w, e.Mentions w → (∀ s, (w, s) ∉ sm) → w.id ∈ e.IDsAfter sm := fun w hw hs =>
    ⟨w, hw, Or.inr ⟨hs, rfl⟩⟩
  generalize e.IDsAfter sm = V at *
  have hvar : ∀ w : Var R, w.OK → e.Mentions w →
      Go.Ok (w.substMap sm) (GoodIm (eval ρ) (fun _ => True) (overV V) (θ w.id)) := by
    intro w hw hm
    rw [var_substMap_eq hw hsm]
    refine ⟨_, rfl, ?_⟩
    cases hl : sm.lookup w with
    | none =>
      have hno : ∀ s, (w, s) ∉ sm := by
        intro s hs
        rw [(lookup_iff hk).mpr hs] at hl
        cases hl
      refine ⟨⟨hw, trivial, single_overV (hin2 w hm hno)⟩, ?_⟩
      rw [(hθ w hm).2 hno]
      simp
    | some s =>
      have hs := (lookup_iff hk).mp hl
      exact ⟨g (hsm _ hs).2 (hin1 w s hm hs), ((hθ w hm).1 s hs).symm⟩
  have hmono : ∀ m : Mono R, m.Canon → (∀ w ∈ m.vars, e.Mentions w) →
      Go.Ok (m.substMap sm) (GoodIm (eval ρ) (fun _ => True) (overV V)
        (eval₂Hom ((eval ρ).comp C) θ m.den)) := by
    intro m hm hme
    rw [mono_substMap_eq hm hsm, ← imMono_eq]
    exact (subFold_im (T := fun _ => overV V) hm (fun w hw => hvar w (hm.ok w hw) (hme w hw))
      (h.resp.mono PSet_overV) _).mono fun r hr => ⟨hr.1.weaken (fun _ h => h) PSet_overV, hr.2⟩
  refine use (P := fun _ => True) (V := V) ?_ (eval_hom ρ θ e.den)
  cases e with
  | k c => exact ⟨_, rfl, trivial, by simp⟩
  | var w => exact (hvar w he rfl).mono fun r hr => ⟨hr.1, by rw [hr.2]; simp⟩
  | mono m => exact hmono m he fun w hw => hw
  | poly p =>
    have hp : p.Canon := he
    show Go.Ok (p.substMap sm) _
    unfold Poly.substMap
    rw [show p.check = .ok () from Good.check (s := .poly p) (good_of_univ (s := .poly p) hp),
      checkSubMap_ok hsm, Go.ok_bind, Go.ok_bind]
    exact sumFold_im h.resp fun m hm => hmono m (hp.all m hm) fun w hw => ⟨m, hm, hw⟩

/-- C57: on 0/1 assignments `Plus`, `Minus`, `Multiply`, `Power` and `AsSimplifiedExpression` of all
well-formed scalars have the right value. -/
theorem arithmetic_binary (ha : a.Canon) (hb : b.Canon) (h : Binary ρ (a.IDs ∪ b.IDs)) :
    (∃ r, a.plus b = .ok r ∧ r.Canon ∧ r.value ρ = a.value ρ + b.value ρ) ∧
    (∃ r, a.minus b = .ok r ∧ r.Canon ∧ r.value ρ = a.value ρ - b.value ρ) ∧
    (∃ r, a.mul b = .ok r ∧ r.Canon ∧ r.value ρ = a.value ρ * b.value ρ) ∧
    (∀ n : Int, 0 ≤ n → ∃ r, a.power n = .ok r ∧ r.Canon ∧ r.value ρ = a.value ρ ^ n.toNat) ∧
    ∃ r, a.asSimplified = .ok r ∧ r.Canon ∧ r.value ρ = a.value ρ :=
  have h1 := h.oneNonzero
  have h2 := h1.mono (Set.subset_union_left (s := a.IDs) (t := b.IDs))
  ⟨plus_one_nonzero ha hb h1, minus_one_nonzero ha hb h1, mul_one_nonzero ha hb h1,
    fun _ => power_one_nonzero ha h2, asSimplified_one_nonzero ha h2⟩

/-! ## Constraints -/

variable [IsStrictOrderedRing R]

/-- The IDs of the variables of a constraint. -/
def SCon.IDs (c : SCon R) : Set ℕ := c.lhs.IDs ∪ c.rhs.IDs

/-- C57, C34: at such an assignment simplification of a constraint does not change whether it holds. -/
theorem simplify_con_one_nonzero {c : SCon R} (hc : c.Canon) (h : OneNonzero ρ c.IDs) :
    ∃ c' k, c.simplify = .ok c' ∧ c'.Canon ∧ c'.sense = c.sense ∧ c'.rhs = .k k ∧
      (c'.Sat ρ ↔ c.Sat ρ) := by
  have main : ∃ c' k, (do
      let d ← c.lhs.minus c.rhs
      let l ← d.plusF64 (← c.rhs.constant)
      return (⟨l, .k (← c.rhs.constant), c.sense⟩ : SCon R)) = .ok c' ∧ c'.Canon ∧
      c'.sense = c.sense ∧ c'.rhs = .k k ∧ (c'.Sat ρ ↔ c.Sat ρ) := by
    obtain ⟨k, hk⟩ := constant_total hc.rhs
    obtain ⟨d, h1, h2, h3⟩ := Scalar.minus_im h.resp (g (V := c.IDs) hc.lhs Set.subset_union_left)
      (g hc.rhs Set.subset_union_right)
    obtain ⟨l, h4, h5, h6⟩ := Scalar.plusF64_im h.resp h2 k
    rw [good_iff] at h5
    refine ⟨⟨l, .k k, c.sense⟩, k, ?_, ⟨h5.1, trivial, hc.sense⟩, rfl, rfl, ?_⟩
    · rw [h1, Go.ok_bind, hk, Go.ok_bind, h4]; rfl
    · unfold SCon.Sat Scalar.value
      simp only [h6, h3, map_add, map_sub, Scalar.den_k, eval_C]
      exact Sense.holds_shift _ _ _ _
  unfold SCon.simplify
  cases hr : c.rhs with
  | k r => exact ⟨c, r, rfl, hc, rfl, hr, Iff.rfl⟩
  | var v | mono m | poly p => rw [hr] at main; exact main

/-- C57, C35: scaling by a non-zero factor. -/
theorem scaleBy_one_nonzero {c : SCon R} (hc : c.Canon) (h : OneNonzero ρ c.IDs) {f : R} (hf : f ≠ 0) :
    ∃ c', c.scaleBy f = .ok c' ∧ c'.Canon ∧ (c'.Sat ρ ↔ c.Sat ρ) := by
  obtain ⟨l, h1, h2, h3⟩ := Scalar.mulF64_im h.resp (g (V := c.IDs) hc.lhs Set.subset_union_left) f
  obtain ⟨r, h4, h5, h6⟩ := Scalar.mulF64_im h.resp (g (V := c.IDs) hc.rhs Set.subset_union_right) f
  rw [good_iff] at h2 h5
  refine ⟨⟨l, r, flipSense c.sense f⟩, ?_, ⟨h2.1, h5.1, flipSense_ok hc.sense f⟩, ?_⟩
  · unfold SCon.scaleBy
    rw [hc.check, Go.ok_bind, h1, Go.ok_bind, h4]; rfl
  · unfold SCon.Sat Scalar.value
    simp only [h3, h6, map_mul, eval_C]
    exact flipSense_holds _ hf _ _

/-- C57, C41: substitution in a constraint. -/
theorem substitute_con_one_nonzero {c : SCon R} {s : Scalar R} {v : Var R} (hc : c.Canon) (hv : v.OK)
    (hs : s.Canon) (hel : SameEnv v c.lhs) (her : SameEnv v c.rhs)
    (h : OneNonzero ρ (c.IDs \ {v.id} ∪ s.IDs)) :
    ∃ c', c.substitute v s = .ok c' ∧ c'.Canon ∧ c'.sense = c.sense ∧
      (c'.Sat ρ ↔ c.Sat (Function.update ρ v.id (s.value ρ))) := by
  obtain ⟨l, h1, h2, h3⟩ := substitute_one_nonzero hc.lhs hv hs hel (h.mono (Set.union_subset_union_left _
    (Set.diff_subset_diff_left Set.subset_union_left)))
  obtain ⟨r, h4, h5, h6⟩ := substitute_one_nonzero hc.rhs hv hs her (h.mono (Set.union_subset_union_left _
    (Set.diff_subset_diff_left Set.subset_union_right)))
  refine ⟨⟨l, r, c.sense⟩, ?_, ⟨h2, h5, hc.sense⟩, rfl, ?_⟩
  · unfold SCon.substitute
    rw [hc.check, Go.ok_bind, h1, Go.ok_bind, h4]; rfl
  · unfold SCon.Sat
    rw [h3, h6]

/-! ## These are the only assignments -/

private def mkVar (R : Type) [Field R] (i : ℕ) : Var R := ⟨i, 0, 1, 0, "x", 0⟩

private theorem mk_canon {i j : ℕ} (hij : i ≠ j) (c : R) :
    (Mono.mk c [2, 1] [mkVar R i, mkVar R j]).Canon := by
  refine ⟨rfl, by simp, by simpa [mkVar] using hij, fun v hv => ?_⟩
  simp only [List.mem_cons, List.not_mem_nil, or_false] at hv
  rcases hv with rfl | rfl <;>
  · show decide ((1 : R) ≤ 0) = false
    simp

private theorem mk_value {i j : ℕ} (c : R) :
    (Scalar.mono (Mono.mk c [2, 1] [mkVar R i, mkVar R j])).value ρ = c * (ρ i ^ 2 * ρ j) := by
  unfold Scalar.value
  rw [Scalar.den_mono, Mono.den_eq_prod]
  simp [mkVar]

private theorem mk_ids {i j : ℕ} (hi : i ∈ V) (hj : j ∈ V) (c : R) :
    (Scalar.mono (Mono.mk c [2, 1] [mkVar R i, mkVar R j])).IDs ⊆ V := by
  rintro _ ⟨w, hw, rfl⟩
  simp only [Scalar.Mentions, List.mem_cons, List.not_mem_nil, or_false] at hw
  rcases hw with rfl | rfl
  · exact hi
  · exact hj

/-- C57: `Plus` is exact at `ρ` for all well-formed scalars in the variables `V` **if and only if** these
variables take at most one nonzero value. -/
theorem plus_exact_at_iff (ρ : ℕ → R) (V : Set ℕ) :
    (∀ a b : Scalar R, a.Canon → b.Canon → a.IDs ⊆ V → b.IDs ⊆ V →
      ∃ r, a.plus b = .ok r ∧ r.value ρ = a.value ρ + b.value ρ) ↔ OneNonzero ρ V := by
  refine ⟨fun h i hi j hj h1 h2 => ?_, fun h a b ha hb hV hW => ?_⟩
  · by_cases hij : i = j
    · rw [hij]
    have ca := mk_canon (R := R) hij 1
    have cb := mk_canon (R := R) (Ne.symm hij) 1
    obtain ⟨r, h3, h4⟩ := h (.mono _) (.mono _) ca cb (mk_ids hi hj 1) (mk_ids hj hi 1)
    have hm : (Mono.mk (1 : R) [2, 1] [mkVar R i, mkVar R j]).matchesFormOf
        (Mono.mk (1 : R) [2, 1] [mkVar R j, mkVar R i]) = .ok true := by
      rw [Mono.matches_ok ca.len cb.len]
      simp [mkVar]
    have hp : (Scalar.mono (Mono.mk (1 : R) [2, 1] [mkVar R i, mkVar R j])).plus
        (.mono (Mono.mk (1 : R) [2, 1] [mkVar R j, mkVar R i])) =
        Mono.asSimplified ⟨1 + 1, [2, 1], [mkVar R i, mkVar R j]⟩ := by
      show Mono.plus _ _ = _
      unfold Mono.plus
      rw [ca.check, show (Scalar.mono (Mono.mk (1 : R) [2, 1] [mkVar R j, mkVar R i])).check = .ok () from
        cb.check, Go.ok_bind, Go.ok_bind]
      simp only [hm, Go.ok_bind, if_true, Go.pure_eq]
      rfl
    obtain ⟨s, h5, -, h6⟩ := Mono.asSimplified_den (P := fun _ => True) (D := Set.univ)
      (m := ⟨1 + 1, [2, 1], [mkVar R i, mkVar R j]⟩) ⟨mk_canon hij _, fun _ _ => trivial, Or.inr trivial⟩
    rw [hp, h5, Except.ok.injEq] at h3
    subst h3
    have h7 := mk_value (ρ := ρ) (i := i) (j := j) (1 + 1 : R)
    unfold Scalar.value at h7
    rw [Scalar.den_mono, ← h6] at h7
    rw [mk_value, mk_value] at h4
    have h8 : (1 + 1 : R) * (ρ i ^ 2 * ρ j) = 1 * (ρ i ^ 2 * ρ j) + 1 * (ρ j ^ 2 * ρ i) :=
      h7.symm.trans h4
    have h9 : ρ i * ρ j * (ρ i - ρ j) = 0 := by linear_combination h8
    rcases mul_eq_zero.mp h9 with h9 | h9
    · exact absurd h9 (mul_ne_zero h1 h2)
    · exact sub_eq_zero.mp h9
  · obtain ⟨r, h1, -, h2⟩ := plus_one_nonzero ha hb (h.mono (Set.union_subset hV hW))
    exact ⟨r, h1, h2⟩

end Value

/-! ## Examples -/

/-- `x^2*y + x*y^2` is collected wrongly, yet its value is right where the values are 0 and 1. -/
example : ∃ r, wA.plus wB = .ok r ∧
    r.value (fun _ => 1) = wA.value (fun _ => 1) + wB.value (fun _ => (1 : ℚ)) := by
  obtain ⟨r, h1, -, h2⟩ := plus_one_nonzero (ρ := fun _ => (1 : ℚ)) wA_canon wB_canon
    fun _ _ _ _ _ _ => rfl
  exact ⟨r, h1, h2⟩

/-- `(x+y)^3` at `x = 1`, `y = 0`. -/
example : ∃ r, wS.power 3 = .ok r ∧ r.value (fun i => if i = 0 then 1 else 0) =
    wS.value (fun i => if i = 0 then (1 : ℚ) else 0) ^ 3 := by
  obtain ⟨r, h1, -, h2⟩ := power_one_nonzero (ρ := fun i => if i = 0 then (1 : ℚ) else 0) wS_canon
    (Binary.oneNonzero fun i _ => by by_cases h : i = 0 <;> simp [h]) (n := 3) (by decide)
  exact ⟨r, h1, h2⟩

/-- The assignment of the counterexamples to C01 to C06 has two nonzero values. -/
example : ¬ OneNonzero wρ {0, 1} := fun h => by
  have := h 0 (by simp) 1 (by simp) (by decide) (by decide)
  exact absurd this (by decide)

/-- `x^2*y = x*y^2` is simplified to `0 = 0` but keeps its 0/1 solutions. -/
example : ∃ c' k, SCon.simplify ⟨wA, wB, .eq⟩ = .ok c' ∧ c'.rhs = .k k ∧
    (c'.Sat (fun _ => 1) ↔ SCon.Sat (fun _ => (1 : ℚ)) ⟨wA, wB, .eq⟩) := by
  obtain ⟨c', k, h1, -, -, h2, h3⟩ := simplify_con_one_nonzero (ρ := fun _ => (1 : ℚ))
    (c := ⟨wA, wB, .eq⟩) ⟨wA_canon, wB_canon, Or.inl rfl⟩ fun _ _ _ _ _ _ => rfl
  exact ⟨c', k, h1, h2, h3⟩

/-- `x^3` with `x := x + y` at `x = 0`, `y = 1`; see `substitute_false`. -/
example : ∃ r, (Scalar.mono (wm1 1 0 3)).substitute wx wS = .ok r ∧
    r.value (fun i => if i = 1 then 1 else 0) = (Scalar.mono (wm1 1 0 3)).value
      (Function.update (fun i => if i = 1 then (1 : ℚ) else 0) 0
        (wS.value fun i => if i = 1 then (1 : ℚ) else 0)) := by
  obtain ⟨r, h1, -, h2⟩ := substitute_one_nonzero (ρ := fun i => if i = 1 then (1 : ℚ) else 0)
    (v := wx) (e := .mono (wm1 1 0 3)) (wm1_canon 1 0 (by decide)) (wv_ok 0) wS_canon (by
      intro w hw _
      simp only [Scalar.Mentions, wm1, List.mem_singleton] at hw
      rw [hw]) (Binary.oneNonzero fun i _ => by by_cases h : i = 1 <;> simp [h])
  exact ⟨r, h1, h2⟩

end Verif
