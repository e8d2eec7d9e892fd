import Verif.Lemmas.FormsMul
import Verif.Lemmas.Deriv
import Verif.Props.Subst

/-!
# Which ways of writing terms can occur, computed

`Shape` bounds the ways in which the terms of a scalar can be written, by a list, and its kind.  The operations on shapes
are computed without coefficients; the lemmas say that they bound what the operations on scalars return.
-/

set_option linter.unusedSectionVars false

namespace Verif

open MvPolynomial

/-- The terms a scalar can have (in any order, up to coefficients and constants), and whether it can be a `Monomial` or a
`Polynomial`. -/
structure Shape where
  ws : List Writing
  m : Bool
  p : Bool

namespace Shape

/-- The two terms are confused by `MatchesFormOf` although they are different, or have a negative exponent. -/
def clash (w w' : Writing) : Bool :=
  w.1.all (fun i => decide (i ∈ w'.1)) && w'.1.all (fun i => decide (i ∈ w.1)) && decide (w.2 = w'.2) &&
    !(w.1.all fun i => decide (w.exp i = w'.exp i))

/-- No two terms are confused. -/
def ok (a : Shape) : Bool :=
  a.ws.all (fun w => w.2.all fun e => decide (0 ≤ e)) && a.ws.all fun w => a.ws.all fun w' => !clash w w'

def one : Shape := ⟨[], false, false⟩

def var (i : ℕ) : Shape := ⟨[([i], [1])], false, false⟩

/-- `Multiply` may call `Multiply` of the second operand. -/
def swaps (a b : Shape) : Bool := (a.ws.any fun w => decide (w.2 = [1])) && (b.m || b.p) || a.m && b.p

def prods (A B : List Writing) : List Writing :=
  ((([], []) :: A).flatMap fun w => (([], []) :: B).map fun w' => Writing.mul w w').filter fun w => !w.1.isEmpty

def mul (a b : Shape) : Shape :=
  ⟨(prods a.ws b.ws ++ if swaps a b then prods b.ws a.ws else []).dedup, true, a.p || b.p⟩

def add (a b : Shape) : Shape := ⟨(a.ws ++ b.ws).dedup, true, true⟩

def pow (a : Shape) : ℕ → Shape
  | 0 => one
  | n + 1 => (a.pow n).mul a

/-- No two terms are confused in any of the products of `Power`. -/
def powOk (a : Shape) : ℕ → Bool
  | 0 => true
  | n + 1 => a.powOk n && (a.pow (n + 1)).ok

/-- A product of powers of replacements `T`. -/
def subst (T : ℕ → Shape) : Shape → List (ℕ × Int) → Shape
  | acc, [] => acc
  | acc, (i, e) :: l => subst T (acc.mul ((T i).pow e.toNat)) l

def substOk (T : ℕ → Shape) : Shape → List (ℕ × Int) → Bool
  | _, [] => true
  | acc, (i, e) :: l => (T i).powOk e.toNat && (acc.mul ((T i).pow e.toNat)).ok &&
      substOk T (acc.mul ((T i).pow e.toNat)) l

/-- Replacing the variables of the terms selected by `c`. -/
def substAll (T : ℕ → Shape) (c : List ℕ → Bool) (a : Shape) (p : Bool) : Shape :=
  ⟨(a.ws.flatMap fun w => if c w.1 then (subst T one (w.1.zip w.2)).ws else [w]).dedup, true, a.p || p⟩

def substAllOk (T : ℕ → Shape) (c : List ℕ → Bool) (a : Shape) (p : Bool) : Bool :=
  (a.ws.all fun w => !c w.1 || substOk T one (w.1.zip w.2)) && (substAll T c a p).ok

/-- The derivative of one term. -/
def derivW (i : ℕ) (w : Writing) : Writing :=
  let ids := if w.exp i = 1 then w.1.erase i else w.1
  (ids, ids.map fun j => w.exp j - if j = i then 1 else 0)

def deriv (a : Shape) (i : ℕ) : Shape :=
  ⟨((a.ws.filter fun w => decide (i ∈ w.1)).map (derivW i)).dedup, true, a.p⟩

/-- The set of the ways of writing. -/
def set (a : Shape) : Set Writing := {w | w ∈ a.ws}

theorem ok_consistent {a : Shape} (h : a.ok = true) : Consistent a.set := by
  unfold ok at h
  rw [Bool.and_eq_true, List.all_eq_true, List.all_eq_true] at h
  obtain ⟨hp, hc⟩ := h
  intro w hw w' hw' hf
  obtain ⟨h1, h2⟩ := Prod.ext_iff.mp hf
  have hm : ∀ i, i ∈ w.1 ↔ i ∈ w'.1 := by
    intro i
    rw [← List.mem_toFinset, ← List.mem_toFinset (l := w'.1)]
    exact (Finset.ext_iff.mp h1) i
  have hpos : ∀ u ∈ a.ws, ∀ e ∈ u.2, 0 ≤ e := fun u hu e he =>
    of_decide_eq_true (List.all_eq_true.mp (hp u hu) e he)
  have he : ∀ i ∈ w.1, w.exp i = w'.exp i := by
    have := List.all_eq_true.mp (hc w hw) w' hw'
    unfold clash at this
    by_contra hcon
    push Not at hcon
    obtain ⟨i, hi, hne⟩ := hcon
    have e1 : (w.1.all fun i => decide (i ∈ w'.1)) = true := List.all_eq_true.mpr fun j hj => decide_eq_true ((hm j).mp hj)
    have e2 : (w'.1.all fun i => decide (i ∈ w.1)) = true := List.all_eq_true.mpr fun j hj => decide_eq_true ((hm j).mpr hj)
    have e3 : (w.1.all fun i => decide (w.exp i = w'.exp i)) = false := by
      rw [List.all_eq_false]
      exact ⟨i, hi, by simpa using hne⟩
    have e4 : w.2 = w'.2 := h2
    rw [e1, e2, e3, decide_eq_true e4] at this
    cases this
  ext i
  by_cases hi : i ∈ w.1
  · have := he i hi
    rw [show w = (w.1, w.2) from rfl, show w' = (w'.1, w'.2) from rfl, exp_degs (hpos w hw), exp_degs (hpos w' hw')] at this
    exact_mod_cast this
  · have hi' : i ∉ w'.1 := fun h => hi ((hm i).mpr h)
    have z : ∀ u ∈ a.ws, i ∉ u.1 → u.degs i = 0 := by
      intro u hu hn
      have := exp_degs (ids := u.1) (hpos u hu) i
      rw [exp_of_notMem hn] at this
      exact_mod_cast this.symm
    rw [z w hw hi, z w' hw' hi']

theorem mem_prods {A B : List Writing} {w w' : Writing} (h : w ∈ insert ([], []) {w | w ∈ A})
    (h' : w' ∈ insert ([], []) {w | w ∈ B}) (hne : (w.mul w').1 ≠ []) : w.mul w' ∈ prods A B := by
  unfold prods
  rw [List.mem_filter, List.mem_flatMap]
  refine ⟨⟨w, List.mem_cons.mpr h, List.mem_map.mpr ⟨w', List.mem_cons.mpr h', rfl⟩⟩, ?_⟩
  rw [Bool.not_eq_true', List.isEmpty_eq_false_iff]
  exact hne

theorem mul_prod (a b : Shape) : ProdTo a.set b.set (a.mul b).set := fun _ hw _ hw' hne =>
  List.mem_dedup.mpr (List.mem_append_left _ (mem_prods hw hw' hne))

theorem mul_swap {a b : Shape} (h : swaps a b = true) : ProdTo b.set a.set (a.mul b).set := fun _ hw _ hw' hne =>
  List.mem_dedup.mpr (List.mem_append_right _ (by rw [if_pos h]; exact mem_prods hw hw' hne))

end Shape

section
variable {R : Type} [Field R] [LinearOrder R]

/-- `s` denotes `f`, its terms are written as the shape says, and it is of a kind the shape allows. -/
structure HasShape (a : Shape) (f : MvPolynomial ℕ R) (s : Scalar R) : Prop where
  den : DenW a.set f s
  mono : ∀ m, s = .mono m → a.m = true
  poly : ∀ p, s = .poly p → a.p = true

namespace Shape
variable {a b : Shape} {f g : MvPolynomial ℕ R} {x y : Scalar R}

theorem has_one (c : R) : HasShape one (C c) (.k c) := ⟨denW_k c, fun _ h => (by cases h), fun _ h => (by cases h)⟩

theorem has_var {v : Var R} (h : v.OK) : HasShape (var v.id) (X v.id) (.var v) := by
  refine ⟨denW_of (s := .var v) h ?_, fun _ h => (by cases h), fun _ h => (by cases h)⟩
  intro m hm _
  rw [List.mem_singleton.mp hm]
  exact List.mem_singleton.mpr rfl

theorem swaps_of (ha : HasShape a f x) (hb : HasShape b g y) (h : x.Swaps y) : swaps a b = true := by
  have lin : ∀ v : Var R, x = .var v → (a.ws.any fun w => decide (w.2 = [1])) = true := by
    rintro v rfl
    have := ha.den.written v.toMono (List.mem_singleton.mpr rfl) (by simp [Var.toMono])
    exact List.any_eq_true.mpr ⟨_, this, by simp [Mono.writing, Var.toMono]⟩
  unfold swaps
  rw [Bool.or_eq_true, Bool.and_eq_true, Bool.and_eq_true, Bool.or_eq_true]
  cases x with
  | k c => exact h.elim
  | var v =>
    cases y with
    | k c => exact h.elim
    | var w => exact h.elim
    | mono m => exact Or.inl ⟨lin v rfl, Or.inl (hb.mono m rfl)⟩
    | poly p => exact Or.inl ⟨lin v rfl, Or.inr (hb.poly p rfl)⟩
  | mono m =>
    cases y with
    | k c => exact h.elim
    | var w => exact h.elim
    | mono m => exact h.elim
    | poly p => exact Or.inr ⟨ha.mono m rfl, hb.poly p rfl⟩
  | poly p => exact h.elim

theorem not_poly (ha : HasShape a f x) (h : a.p = false) : ∀ p, x ≠ .poly p := by
  rintro p rfl
  have := ha.poly p rfl
  rw [h] at this
  cases this

theorem has_mul (hok : (a.mul b).ok = true) (ha : HasShape a f x) (hb : HasShape b g y) :
    Go.Ok (x.mul y) (HasShape (a.mul b) (f * g)) := by
  obtain ⟨r, h1, h2⟩ := Scalar.mul_ordered (mul_prod a b) (ok_consistent hok) ha.den hb.den
    fun h => mul_swap (swaps_of ha hb h)
  refine ⟨r, h1, h2, fun _ _ => rfl, ?_⟩
  intro p hp
  show (a.p || b.p) = true
  by_contra hn
  rw [Bool.not_eq_true, Bool.or_eq_false_iff] at hn
  obtain ⟨r', h1', -, h3, -⟩ := Scalar.mul_den_nonpoly ha.den.canon hb.den.canon (not_poly ha hn.1) (not_poly hb hn.2)
  rw [h1, Except.ok.injEq] at h1'
  exact h3 p (h1' ▸ hp)

theorem has_powLoop (ha : HasShape a f x) (n k : ℕ) (hok : a.powOk (n + k) = true) (hg : HasShape (a.pow k) g y) :
    Go.Ok (powLoop x n y) (HasShape (a.pow (n + k)) (g * f ^ n)) := by
  induction n generalizing k y g with
  | zero =>
    rw [Nat.zero_add, pow_zero, mul_one]
    exact Go.ok_pure hg
  | succ n ih =>
    have e : n + 1 + k = n + (k + 1) := by omega
    rw [e] at hok ⊢
    have h1 : (a.pow (k + 1)).ok = true := by
      have : ∀ j, a.powOk (j + (k + 1)) = true → (a.pow (k + 1)).ok = true := by
        intro j
        induction j with
        | zero =>
          intro h
          rw [Nat.zero_add] at h
          exact (Bool.and_eq_true _ _ ▸ h).2
        | succ j ihj =>
          intro h
          rw [show j + 1 + (k + 1) = (j + (k + 1)) + 1 by omega] at h
          exact ihj (Bool.and_eq_true _ _ ▸ h).1
      exact this n hok
    show Go.Ok (do powLoop x n (← y.mul x)) _
    refine (has_mul (b := a) h1 hg ha).bind fun z hz => ?_
    refine (ih (k + 1) hok hz).mono fun r hr => ?_
    rwa [pow_succ', ← mul_assoc]

theorem has_power (ha : HasShape a f x) (n : ℕ) (hok : a.powOk n = true) :
    Go.Ok (x.power n) (HasShape (a.pow n) (f ^ n)) := by
  have h := has_powLoop ha n 0 hok (has_one 1)
  rw [C_1, one_mul] at h
  have e : x.power n = powLoop x n (.k GoNum.one) := by
    unfold Scalar.power
    rw [ha.den.good.check, Go.ok_bind, if_neg (by omega)]
    rfl
  rw [e]
  exact h

theorem weaken_m {s : Shape} (ha : HasShape a f x) (hs : a.set ⊆ s.set) (hm : s.m = true) (hp : a.p = true → s.p = true) :
    HasShape s f x := ⟨SemW.weaken ha.den hs, fun _ _ => hm, fun p h => hp (ha.poly p h)⟩

theorem has_add (hok : (a.add b).ok = true) (ha : HasShape a f x) (hb : HasShape b g y) :
    Go.Ok (x.plus y) (HasShape (a.add b) (f + g)) := by
  have s1 : a.set ⊆ (a.add b).set := fun w hw => List.mem_dedup.mpr (List.mem_append_left _ hw)
  have s2 : b.set ⊆ (a.add b).set := fun w hw => List.mem_dedup.mpr (List.mem_append_right _ hw)
  exact (Scalar.plus_sem (respects_den (ok_consistent hok)) (SemW.weaken ha.den s1) (SemW.weaken hb.den s2)).mono
    fun r hr => ⟨hr, fun _ _ => rfl, fun _ _ => rfl⟩

theorem has_sub (hok : (a.add b).ok = true) (ha : HasShape a f x) (hb : HasShape b g y) :
    Go.Ok (x.minus y) (HasShape (a.add b) (f - g)) := by
  have s1 : a.set ⊆ (a.add b).set := fun w hw => List.mem_dedup.mpr (List.mem_append_left _ hw)
  have s2 : b.set ⊆ (a.add b).set := fun w hw => List.mem_dedup.mpr (List.mem_append_right _ hw)
  exact (Scalar.minus_sem (respects_den (ok_consistent hok)) (SemW.weaken ha.den s1) (SemW.weaken hb.den s2)).mono
    fun r hr => ⟨hr, fun _ _ => rfl, fun _ _ => rfl⟩

/-! ## Substitution -/

theorem has_subFold {T : ℕ → Shape} {φ : ℕ → MvPolynomial ℕ R} {F : Var R → Go (Scalar R)} (l : List (Var R × Int))
    (hl : ∀ ve ∈ l, 0 ≤ ve.2) (hF : ∀ ve ∈ l, Go.Ok (F ve.1) (HasShape (T ve.1.id) (φ ve.1.id)))
    (hok : substOk T a (l.map fun ve => (ve.1.id, ve.2)) = true) (ha : HasShape a f x) :
    Go.Ok (l.foldlM (subStep F) x) (HasShape (subst T a (l.map fun ve => (ve.1.id, ve.2)))
      (f * (l.map fun ve => φ ve.1.id ^ ve.2.toNat).prod)) := by
  induction l generalizing a f x with
  | nil =>
    rw [List.map_nil, List.map_nil, List.prod_nil, mul_one]
    exact Go.ok_pure ha
  | cons ve l ih =>
    obtain ⟨v, e⟩ := ve
    rw [List.map_cons] at hok ⊢
    unfold substOk at hok
    rw [Bool.and_eq_true, Bool.and_eq_true] at hok
    rw [List.foldlM_cons]
    have h0 : 0 ≤ e := hl (v, e) (List.mem_cons_self ..)
    refine Go.Ok.bind (P := HasShape (a.mul ((T v.id).pow e.toNat)) (f * φ v.id ^ e.toNat)) ?_ fun z hz => ?_
    · unfold subStep
      refine (hF (v, e) (List.mem_cons_self ..)).bind fun s hs => ?_
      have := has_power hs e.toNat hok.1.1
      rw [Int.toNat_of_nonneg h0] at this
      exact this.bind fun pw hpw => has_mul hok.1.2 ha hpw
    · refine (ih (fun u hu => hl u (List.mem_cons_of_mem _ hu)) (fun u hu => hF u (List.mem_cons_of_mem _ hu)) hok.2 hz).mono
        fun r hr => ?_
      rwa [List.map_cons, List.prod_cons, ← mul_assoc]

theorem subst_p (T : ℕ → Shape) (q : Bool) (l : List (ℕ × Int)) (hT : ∀ ie ∈ l, (T ie.1).p = true → q = true)
    (hq : a.p = true → q = true) : (subst T a l).p = true → q = true := by
  induction l generalizing a with
  | nil => exact hq
  | cons ie l ih =>
    obtain ⟨i, e⟩ := ie
    refine ih (fun u hu => hT u (List.mem_cons_of_mem _ hu)) fun h => ?_
    have hp : ∀ n, ((T i).pow n).p = true → q = true := by
      intro n
      induction n with
      | zero => intro h; cases h
      | succ n ihn =>
        intro h
        rcases (Bool.or_eq_true _ _ ▸ h : ((T i).pow n).p = true ∨ (T i).p = true) with h | h
        · exact ihn h
        · exact hT (i, e) (List.mem_cons_self ..) h
    rcases (Bool.or_eq_true _ _ ▸ h : a.p = true ∨ ((T i).pow e.toNat).p = true) with h | h
    · exact hq h
    · exact hp _ h

theorem subst_m (T : ℕ → Shape) {l : List (ℕ × Int)} (h : a.m = true) : (subst T a l).m = true := by
  induction l generalizing a with
  | nil => exact h
  | cons ie l ih => exact ih rfl

section
variable {T : ℕ → Shape} {φ : ℕ → MvPolynomial ℕ R} {F : Var R → Go (Scalar R)} {q : Bool} {c : List ℕ → Bool}

/-- One term. -/
theorem has_substMono (hok : substAllOk T c a q = true) (hq : ∀ i, (T i).p = true → q = true) {m : Mono R} (hm : m.Canon)
    (hw : m.vars ≠ [] → m.writing ∈ a.ws) (hc : c (m.vars.map (·.id)) = true)
    (hF : ∀ v ∈ m.vars, Go.Ok (F v) (HasShape (T v.id) (φ v.id))) :
    Go.Ok ((m.vars.zip m.exps).foldlM (subStep F) (.k m.coeff))
      (HasShape (substAll T c a q) (bind₁ φ m.den)) := by
  rw [bind₁_mono]
  by_cases hv : m.vars = []
  · rw [hv]
    refine Go.ok_pure ⟨?_, fun _ h => (by cases h), fun _ h => (by cases h)⟩
    simpa using denW_k m.coeff
  have hw := hw hv
  unfold substAllOk at hok
  rw [Bool.and_eq_true, List.all_eq_true] at hok
  have hz : (m.vars.zip m.exps).map (fun ve => (ve.1.id, ve.2)) = m.writing.1.zip m.writing.2 := by
    unfold Mono.writing
    rw [List.zip_map_left]
    rfl
  have h1 : substOk T one (m.writing.1.zip m.writing.2) = true := by
    have h1 := hok.1 _ hw
    have hc' : c m.writing.1 = true := hc
    rwa [hc', Bool.not_true, Bool.false_or] at h1
  rw [← hz] at h1
  refine (has_subFold (T := T) (φ := φ) (m.vars.zip m.exps) (fun ve hve => (hm.pos _ (List.of_mem_zip hve).2).le)
    (fun ve hve => hF _ (List.of_mem_zip hve).1) h1 (has_one m.coeff)).mono fun r hr => ?_
  refine weaken_m hr ?_ rfl ?_
  · intro w hw'
    refine List.mem_dedup.mpr (List.mem_flatMap.mpr ⟨_, hw, ?_⟩)
    rw [if_pos (show c m.writing.1 = true from hc), ← hz]
    exact hw'
  · intro h
    show (a.p || q) = true
    rw [Bool.or_eq_true]
    exact Or.inr (subst_p T q _ (fun ie _ => hq ie.1) (by intro h; cases h) h)

/-- A term that is left alone. -/
theorem has_substKeep {m : Mono R} (hm : m.Canon) (hw : m.vars ≠ [] → m.writing ∈ a.ws)
    (hc : c (m.vars.map (·.id)) = false) (hφ : ∀ v ∈ m.vars, φ v.id = X v.id) :
    HasShape (substAll T c a q) (bind₁ φ m.den) (.mono m) := by
  have e : bind₁ φ m.den = m.den := by
    rw [bind₁_mono, Mono.den_eq_prod]
    congr 2
    refine List.map_congr_left fun ve hve => ?_
    rw [hφ _ (List.of_mem_zip hve).1]
  rw [e]
  refine ⟨denW_mono (goodW_self ⟨hm, fun hv => ?_⟩), fun _ _ => rfl, fun _ h => (by cases h)⟩
  refine List.mem_dedup.mpr (List.mem_flatMap.mpr ⟨_, hw hv, ?_⟩)
  rw [if_neg (by rw [show c m.writing.1 = false from hc]; simp)]
  exact List.mem_singleton.mpr rfl

/-- One variable. -/
theorem has_substVar (hq : ∀ i, (T i).p = true → q = true) {v : Var R}
    (ha : HasShape a f (.var v)) (hc : c [v.id] = true) {r : Scalar R} (hr : HasShape (T v.id) (φ v.id) r) :
    HasShape (substAll T c a q) (φ v.id) r := by
  refine ⟨?_, fun _ _ => rfl, ?_⟩
  · have h1 : DenW ((T v.id).pow 1).set (φ v.id) r := SemW.right (mul_prod one (T v.id)) hr.den
    have h2 : DenW (one.mul ((T v.id).pow 1)).set (φ v.id) r := SemW.right (mul_prod one _) h1
    refine SemW.weaken h2 fun w hw => ?_
    have hv := ha.den.written v.toMono (List.mem_singleton.mpr rfl) (by simp [Var.toMono])
    refine List.mem_dedup.mpr (List.mem_flatMap.mpr ⟨_, hv, ?_⟩)
    rw [if_pos (show c v.toMono.writing.1 = true from hc)]
    exact hw
  · intro p hp
    show (a.p || q) = true
    rw [Bool.or_eq_true]
    exact Or.inr (hq _ (hr.poly p hp))

/-- The sum over the terms. -/
theorem has_sumFold (hok : substAllOk T c a q = true) (hp : a.p = true) {G : Mono R → Go (Scalar R)} {l : List (Mono R)}
    (hG : ∀ m ∈ l, Go.Ok (G m) (HasShape (substAll T c a q) (bind₁ φ m.den))) :
    Go.Ok (l.foldlM (fun acc m => do
      let t ← G m
      acc.plus t) (Scalar.k GoNum.zero)) (HasShape (substAll T c a q) (bind₁ φ (lden l))) := by
  unfold substAllOk at hok
  rw [Bool.and_eq_true] at hok
  apply Go.foldlM_ok' _ (fun pre => HasShape (substAll T c a q) (bind₁ φ (lden pre)))
  · refine ⟨?_, fun _ h => (by cases h), fun _ h => (by cases h)⟩
    rw [lden_nil, map_zero]
    exact denW_zero
  · rintro pre m acc ⟨post, hpost⟩ hacc
    refine (hG m (by rw [hpost]; simp)).bind fun t ht => ?_
    refine (Scalar.plus_sem (respects_den (ok_consistent hok.2)) hacc.den ht.den).mono fun r hr => ?_
    refine ⟨?_, fun _ _ => rfl, fun _ _ => ?_⟩
    · rwa [lden_append, lden_cons, lden_nil, add_zero, map_add]
    · show (a.p || q) = true
      rw [hp]
      rfl

end

/-! ## Derivatives -/

theorem derivative_writing {m : Mono R} (hm : m.Canon) {v : Var R} (hv : v.OK) {d : Mono R}
    (h : m.derivative v = .ok (.mono d)) : v.id ∈ m.writing.1 ∧ d.writing = derivW v.id m.writing := by
  obtain ⟨r, h1, h2⟩ := Mono.derivative_ok hm hv
  rw [h, Except.ok.injEq] at h1
  subst h1
  have key : d.Canon ∧ d.degs + Finsupp.single v.id 1 = m.degs := by
    cases h2 with
    | erase d hd _ _ hdeg _ => exact ⟨hd, hdeg⟩
    | dec d e hd _ _ hdeg _ _ => exact ⟨hd, hdeg⟩
  obtain ⟨hd, hdeg⟩ := key
  unfold Mono.derivative at h
  rw [hm.check, hv.check, Go.ok_bind, Go.ok_bind] at h
  cases hf : findVar v m.vars with
  | none => rw [hf] at h; cases h
  | some i =>
    rw [hf] at h
    obtain ⟨w, hw, hwv⟩ := findVar_some hf
    have hi := findVar_lt hf
    have hie : i < m.exps.length := by rw [hm.len]; exact hi
    have he : m.exps[i]? = some m.exps[i] := List.getElem?_eq_getElem hie
    simp only [he] at h
    have hin : v.id ∈ m.writing.1 := List.mem_map.mpr ⟨w, List.mem_of_getElem? hw, hwv⟩
    refine ⟨hin, ?_⟩
    have hdv : m.degs v.id = m.exps[i].toNat := by
      rw [← hwv]
      apply hm.degs_apply
      rw [List.mem_iff_getElem?]
      exact ⟨i, by rw [List.getElem?_zip_eq_some]; exact ⟨hw, he⟩⟩
    have hpos : 0 < m.exps[i] := hm.pos _ (List.getElem_mem hie)
    have hex : m.writing.exp v.id = m.exps[i] := by rw [hm.exp, hdv]; omega
    have hids : d.writing.1 = (derivW v.id m.writing).1 := by
      show _ = if m.writing.exp v.id = 1 then m.writing.1.erase v.id else m.writing.1
      rw [hex]
      by_cases h1 : m.exps[i] = 1
      · rw [if_pos h1]
        by_cases hl : m.vars.length = 1
        · rw [if_pos ⟨h1, hl⟩] at h
          cases h
        · rw [if_neg (fun h => hl h.2), if_pos h1] at h
          simp only [Go.pure_eq, Except.ok.injEq, Scalar.mono.injEq] at h
          subst h
          show (m.vars.eraseIdx i).map _ = (m.vars.map _).erase v.id
          have hi' : i < (m.vars.map (·.id)).length := by rw [List.length_map]; exact hi
          have e : (m.vars.map (·.id))[i] = v.id := by
            rw [List.getElem_map]
            rw [List.getElem?_eq_getElem hi, Option.some.injEq] at hw
            rw [hw, hwv]
          rw [← e, hm.nodup.erase_getElem, List.eraseIdx_map]
      · rw [if_neg h1]
        rw [if_neg (fun h => h1 h.1), if_neg h1] at h
        simp only [Go.pure_eq, Except.ok.injEq, Scalar.mono.injEq] at h
        subst h
        rfl
    rw [hd.writing_eq, hids]
    refine Prod.ext rfl ?_
    show List.map _ _ = List.map _ _
    refine List.map_congr_left fun j _ => ?_
    have := DFunLike.congr_fun hdeg j
    rw [Finsupp.add_apply, Finsupp.single_apply] at this
    rw [hm.exp]
    by_cases hj : j = v.id
    · rw [if_pos hj.symm] at this
      rw [if_pos hj]
      omega
    · rw [if_neg (fun h => hj h.symm)] at this
      rw [if_neg hj]
      omega

theorem derivFold_writing {v : Var R} (hv : v.OK) (l acc out : List (Mono R)) (hl : ∀ m ∈ l, m.Canon)
    (h : l.foldlM (derivStep v) acc = .ok out) :
    ∀ d ∈ out, d ∈ acc ∨ d.vars = [] ∨ ∃ m ∈ l, v.id ∈ m.writing.1 ∧ d.writing = derivW v.id m.writing := by
  induction l generalizing acc with
  | nil =>
    simp only [List.foldlM_nil, Go.pure_eq, Except.ok.injEq] at h
    exact fun d hd => Or.inl (h ▸ hd)
  | cons m l ih =>
    rw [List.foldlM_cons] at h
    obtain ⟨acc', h1, h2⟩ := Go.bind_eq_ok.mp h
    have hm := hl m (List.mem_cons_self ..)
    intro d hd
    rcases ih acc' (fun u hu => hl u (List.mem_cons_of_mem _ hu)) h2 d hd with h | h | ⟨u, hu, h⟩
    · have step : d ∈ acc ∨ d.vars = [] ∨ (v.id ∈ m.writing.1 ∧ d.writing = derivW v.id m.writing) := by
        unfold derivStep at h1
        split at h1
        · simp only [Go.pure_eq, Except.ok.injEq] at h1
          exact Or.inl (h1 ▸ h)
        · obtain ⟨s, h3, h4⟩ := Go.bind_eq_ok.mp h1
          split at h4
          · simp only [Go.pure_eq, Except.ok.injEq] at h4
            subst h4
            rcases List.mem_append.mp h with h | h
            · exact Or.inl h
            · rw [List.mem_singleton.mp h]
              exact Or.inr (Or.inr (derivative_writing hm hv h3))
          · split at h4
            · simp only [Go.pure_eq, Except.ok.injEq] at h4
              exact Or.inl (h4 ▸ h)
            · simp only [Go.pure_eq, Except.ok.injEq] at h4
              subst h4
              rcases List.mem_append.mp h with h | h
              · exact Or.inl h
              · rw [List.mem_singleton.mp h]
                exact Or.inr (Or.inl rfl)
          · cases h4
      rcases step with h | h | h
      · exact Or.inl h
      · exact Or.inr (Or.inl h)
      · exact Or.inr (Or.inr ⟨m, List.mem_cons_self .., h⟩)
    · exact Or.inr (Or.inl h)
    · exact Or.inr (Or.inr ⟨u, List.mem_cons_of_mem _ hu, h⟩)

/-- The terms of a derivative, and its kind. -/
theorem deriv_written (ha : HasShape a f x) {v : Var R} (hv : v.OK) {r : Scalar R} (h : x.derivative v = .ok r) :
    r.WrittenIn (a.deriv v.id).set ∧ ∀ p, r = .poly p → a.p = true := by
  have kc : ∀ c : R, (Scalar.k c).WrittenIn (a.deriv v.id).set ∧ ∀ p, Scalar.k c = .poly p → a.p = true := by
    intro c
    refine ⟨?_, fun _ h => (by cases h)⟩
    intro m hm hne
    rw [List.mem_singleton.mp hm] at hne
    exact absurd rfl hne
  have mem : ∀ m ∈ x.terms, ∀ d : Mono R, v.id ∈ m.writing.1 → d.writing = derivW v.id m.writing →
      d.writing ∈ (a.deriv v.id).set := by
    intro m hm d hi hd
    rw [hd]
    refine List.mem_dedup.mpr (List.mem_map.mpr ⟨_, List.mem_filter.mpr ⟨ha.den.written m hm ?_, decide_eq_true hi⟩, rfl⟩)
    rintro h
    simp [Mono.writing, h] at hi
  cases x with
  | k c =>
    simp only [Scalar.derivative, Go.pure_eq, Except.ok.injEq] at h
    exact h ▸ kc _
  | var w =>
    simp only [Scalar.derivative] at h
    obtain ⟨-, -, h⟩ := Go.bind_eq_ok.mp h
    obtain ⟨-, -, h⟩ := Go.bind_eq_ok.mp h
    split at h
    all_goals
      simp only [Go.pure_eq, Except.ok.injEq] at h
      exact h ▸ kc _
  | mono m =>
    have hm : m.Canon := ha.den.canon
    change m.derivative v = .ok r at h
    obtain ⟨r', h1, h2⟩ := Mono.derivative_ok hm hv
    rw [h, Except.ok.injEq] at h1
    subst h1
    have hmono : ∀ d : Mono R, r = .mono d → r.WrittenIn (a.deriv v.id).set ∧ ∀ p, r = .poly p → a.p = true := by
      rintro d rfl
      refine ⟨?_, fun _ h => (by cases h)⟩
      intro d' hd' _
      rw [List.mem_singleton.mp hd']
      obtain ⟨e1, e2⟩ := derivative_writing hm hv h
      exact mem m (List.mem_singleton.mpr rfl) d e1 e2
    cases h2 with
    | absent _ => exact kc _
    | linear _ _ _ _ => exact kc _
    | erase d => exact hmono d rfl
    | dec d => exact hmono d rfl
  | poly p =>
    refine ⟨?_, fun _ _ => ha.poly p rfl⟩
    change p.derivative v = .ok r at h
    unfold Poly.derivative at h
    obtain ⟨-, -, h⟩ := Go.bind_eq_ok.mp h
    obtain ⟨-, -, h⟩ := Go.bind_eq_ok.mp h
    obtain ⟨out, h1, h⟩ := Go.bind_eq_ok.mp h
    have hw := derivFold_writing hv p.monos [] out ha.den.canon.2 h1
    split at h
    · simp only [Go.pure_eq, Except.ok.injEq] at h
      exact h ▸ (kc _).1
    · simp only [Go.pure_eq, Except.ok.injEq] at h
      subst h
      intro d hd hne
      rcases hw d hd with h | h | ⟨m, hm, e1, e2⟩
      · cases h
      · exact absurd h hne
      · exact mem m hm d e1 e2

end Shape

end

end Verif
