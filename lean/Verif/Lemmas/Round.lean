import Verif.Lemmas.NormalForm
import Mathlib.Tactic.Linarith
import Mathlib.Tactic.Positivity

/-!
# Rounding errors

`RoundModel R K` is what floating point guarantees about results that are not representable: an operation
returns the exact result up to a relative error `u`.  The coefficients of what the library returns are
compared with the coefficients of the exact result.

`Near n c x b`: the float `c` is within `((1+u)^n - 1) * b` of `x`, where `|x| ≤ b`.  This is what `n`
roundings of a sum of numbers whose absolute values add up to `b` can do.
-/

set_option linter.unusedSectionVars false

namespace Verif

open MvPolynomial

/-- Numbers `R` that are rounded.  `val c` is the exact value of a finite `c`.  `Small q`: results of the
size of `q` do not overflow.  `Normal q`: a product with the exact value `q` does not underflow. -/
structure RoundModel (R K : Type) [GoNum R] [Field K] [LinearOrder K] where
  val : R → K
  Fin : R → Prop
  u : K
  Small : K → Prop
  Normal : K → Prop
  u_nonneg : 0 ≤ u
  small_mono : ∀ {p q : K}, |p| ≤ |q| → Small q → Small p
  zero : Fin GoNum.zero ∧ val GoNum.zero = 0
  one : Fin GoNum.one ∧ val GoNum.one = 1
  two : Fin (GoNum.ofInt 2) ∧ val (GoNum.ofInt 2) = 2
  neg_one : Fin negOne ∧ val negOne = -1
  add : ∀ {x y}, Fin x → Fin y → Small (val x + val y) →
    Fin (GoNum.add x y) ∧ |val (GoNum.add x y) - (val x + val y)| ≤ u * |val x + val y|
  zero_add : ∀ {x y}, Fin x → Fin y → val x = 0 → Fin (GoNum.add x y) ∧ val (GoNum.add x y) = val y
  mul : ∀ {x y}, Fin x → Fin y → Small (val x * val y) → Normal (val x * val y) →
    Fin (GoNum.mul x y) ∧ |val (GoNum.mul x y) - val x * val y| ≤ u * |val x * val y|
  mul_neg : ∀ {x}, Fin x → Fin (GoNum.mul x negOne) ∧ val (GoNum.mul x negOne) = - val x
  neg_mul : ∀ {x}, Fin x → Fin (GoNum.mul negOne x) ∧ val (GoNum.mul negOne x) = - val x
  mul_one : ∀ {x}, Fin x → Fin (GoNum.mul x GoNum.one) ∧ val (GoNum.mul x GoNum.one) = val x
  feq : ∀ {x y}, Fin x → Fin y → (GoNum.feq x y = true ↔ val x = val y)

variable {R K : Type} [GoNum R] [Field K] [LinearOrder K] [IsStrictOrderedRing K]
variable {F : RoundModel R K}

/-! ## One coefficient -/

/-- `c` is within `n` roundings of `x`. -/
structure Near (F : RoundModel R K) (n : ℕ) (c : R) (x b : K) : Prop where
  fin : F.Fin c
  err : |F.val c - x| ≤ ((1 + F.u) ^ n - 1) * b
  le : |x| ≤ b

theorem one_le_pow_u (F : RoundModel R K) (n : ℕ) : 1 ≤ (1 + F.u) ^ n :=
  one_le_pow₀ (by have := F.u_nonneg; linarith)

theorem pow_u_mono (F : RoundModel R K) {n k : ℕ} (h : n ≤ k) : (1 + F.u) ^ n ≤ (1 + F.u) ^ k :=
  pow_le_pow_right₀ (by have := F.u_nonneg; linarith) h

theorem Near.nonneg {n : ℕ} {c : R} {x b : K} (h : Near F n c x b) : 0 ≤ b := (abs_nonneg x).trans h.le

theorem Near.abs_le {n : ℕ} {c : R} {x b : K} (h : Near F n c x b) : |F.val c| ≤ (1 + F.u) ^ n * b := by
  have h1 : |F.val c| ≤ |F.val c - x| + |x| := by
    have := abs_add_le (F.val c - x) x
    simpa using this
  have := h.err
  have := h.le
  nlinarith

theorem Near.weaken {n k : ℕ} {c : R} {x b : K} (h : Near F n c x b) (hk : n ≤ k) : Near F k c x b :=
  ⟨h.fin, h.err.trans (mul_le_mul_of_nonneg_right (by have := pow_u_mono F hk; linarith) h.nonneg), h.le⟩

theorem near_self {c : R} (h : F.Fin c) : Near F 0 c (F.val c) |F.val c| :=
  ⟨h, by simp, le_refl _⟩

theorem Near.add {n : ℕ} {c d : R} {x y b e : K} (h : Near F n c x b) (h' : Near F n d y e)
    (hs : F.Small ((1 + F.u) ^ n * (b + e))) : Near F (n + 1) (GoNum.add c d) (x + y) (b + e) := by
  have hv : |F.val c + F.val d| ≤ (1 + F.u) ^ n * (b + e) := by
    have := abs_add_le (F.val c) (F.val d)
    have := h.abs_le
    have := h'.abs_le
    linarith
  have hp : 0 ≤ (1 + F.u) ^ n * (b + e) := (abs_nonneg _).trans hv
  obtain ⟨h1, h2⟩ := F.add h.fin h'.fin (F.small_mono (by rwa [abs_of_nonneg hp]) hs)
  refine ⟨h1, ?_, (abs_add_le x y).trans (add_le_add h.le h'.le)⟩
  have h3 : |F.val (GoNum.add c d) - (x + y)| ≤
      |F.val (GoNum.add c d) - (F.val c + F.val d)| + (|F.val c - x| + |F.val d - y|) := by
    have := abs_add_le (F.val (GoNum.add c d) - (F.val c + F.val d)) ((F.val c - x) + (F.val d - y))
    have := abs_add_le (F.val c - x) (F.val d - y)
    have e1 : F.val (GoNum.add c d) - (x + y) =
      (F.val (GoNum.add c d) - (F.val c + F.val d)) + ((F.val c - x) + (F.val d - y)) := by ring
    rw [e1]
    linarith
  have h4 := mul_le_mul_of_nonneg_left hv F.u_nonneg
  have h5 := h.err
  have h6 := h'.err
  rw [pow_succ]
  nlinarith

theorem Near.zero_add {n : ℕ} {c d : R} {x b : K} (hc : F.Fin c) (h0 : F.val c = 0) (h : Near F n d x b) :
    Near F n (GoNum.add c d) x b := by
  obtain ⟨h1, h2⟩ := F.zero_add hc h.fin h0
  exact ⟨h1, by rw [h2]; exact h.err, h.le⟩

theorem near_mul {c d : R} (hc : F.Fin c) (hd : F.Fin d) (hs : F.Small (F.val c * F.val d))
    (hn : F.Normal (F.val c * F.val d)) :
    Near F 1 (GoNum.mul c d) (F.val c * F.val d) (|F.val c| * |F.val d|) := by
  obtain ⟨h1, h2⟩ := F.mul hc hd hs hn
  refine ⟨h1, ?_, (abs_mul _ _).le⟩
  rw [← abs_mul]
  simpa using h2

theorem near_neg {c : R} (hc : F.Fin c) : Near F 0 (GoNum.mul c negOne) (-F.val c) |F.val c| := by
  obtain ⟨h1, h2⟩ := F.mul_neg hc
  exact ⟨h1, by simp [h2], by rw [abs_neg]⟩

/-! ## Term lists -/

/-- The exact value of a term. -/
noncomputable def vterm (F : RoundModel R K) (m : Mono R) : MvPolynomial ℕ K := monomial m.degs (F.val m.coeff)

/-- The same with the absolute value of the coefficient. -/
noncomputable def aterm (F : RoundModel R K) (m : Mono R) : MvPolynomial ℕ K := monomial m.degs |F.val m.coeff|

noncomputable def vden (F : RoundModel R K) (l : List (Mono R)) : MvPolynomial ℕ K := (l.map (vterm F)).sum

noncomputable def aden (F : RoundModel R K) (l : List (Mono R)) : MvPolynomial ℕ K := (l.map (aterm F)).sum

@[simp] theorem vden_nil : vden F [] = 0 := rfl
@[simp] theorem vden_cons (m : Mono R) (l) : vden F (m :: l) = vterm F m + vden F l := by simp [vden]
@[simp] theorem vden_append (l l' : List (Mono R)) : vden F (l ++ l') = vden F l + vden F l' := by simp [vden]
@[simp] theorem aden_nil : aden F [] = 0 := rfl
@[simp] theorem aden_cons (m : Mono R) (l) : aden F (m :: l) = aterm F m + aden F l := by simp [aden]
@[simp] theorem aden_append (l l' : List (Mono R)) : aden F (l ++ l') = aden F l + aden F l' := by simp [aden]

/-- Everything except the coefficient, up to the order of the factors. -/
noncomputable def Mono.rkey (m : Mono R) : (ℕ →₀ ℕ) × List Int := (m.degs, m.exps)

/-- No two terms are alike for `Simplify`. -/
def TidyL (l : List (Mono R)) : Prop := (l.map Mono.rkey).Nodup

/-- The coefficients of the terms are those of `f` up to `n` roundings, where `g` bounds the sums of
absolute values. -/
structure Appr (F : RoundModel R K) (n : ℕ) (l : List (Mono R)) (f g : MvPolynomial ℕ K) : Prop where
  fin : ∀ m ∈ l, F.Fin m.coeff
  err : ∀ d, |coeff d (vden F l) - coeff d f| ≤ ((1 + F.u) ^ n - 1) * coeff d g
  le : ∀ d, |coeff d f| ≤ coeff d g
  size : ∀ d, coeff d (aden F l) ≤ (1 + F.u) ^ n * coeff d g

/-! ## Terms with what they stand for -/

/-- A term, the number of roundings, and the exact value of its coefficient with a bound. -/
structure Ann (R K : Type) where
  m : Mono R
  n : ℕ
  x : K
  b : K

noncomputable def fsum (A : List (Ann R K)) : MvPolynomial ℕ K := (A.map fun a => monomial a.m.degs a.x).sum
noncomputable def gsum (A : List (Ann R K)) : MvPolynomial ℕ K := (A.map fun a => monomial a.m.degs a.b).sum

@[simp] theorem fsum_nil : fsum ([] : List (Ann R K)) = 0 := rfl
@[simp] theorem fsum_cons (a : Ann R K) (A) : fsum (a :: A) = monomial a.m.degs a.x + fsum A := by simp [fsum]
@[simp] theorem fsum_append (A B : List (Ann R K)) : fsum (A ++ B) = fsum A + fsum B := by simp [fsum]
@[simp] theorem gsum_nil : gsum ([] : List (Ann R K)) = 0 := rfl
@[simp] theorem gsum_cons (a : Ann R K) (A) : gsum (a :: A) = monomial a.m.degs a.b + gsum A := by simp [gsum]
@[simp] theorem gsum_append (A B : List (Ann R K)) : gsum (A ++ B) = gsum A + gsum B := by simp [gsum]

/-- The annotation is right. -/
def Ann.Ok (F : RoundModel R K) (a : Ann R K) : Prop := Near F a.n a.m.coeff a.x a.b

theorem coeff_monomial_nonneg {d e : ℕ →₀ ℕ} {b : K} (hb : 0 ≤ b) : 0 ≤ coeff e (monomial d b) := by
  rw [coeff_monomial]; split <;> simp [hb]

theorem gsum_nonneg {A : List (Ann R K)} (h : ∀ a ∈ A, a.Ok F) (d : ℕ →₀ ℕ) : 0 ≤ coeff d (gsum A) := by
  induction A with
  | nil => simp
  | cons a A ih =>
    rw [gsum_cons, coeff_add]
    exact add_nonneg (coeff_monomial_nonneg (h a (by simp)).nonneg) (ih fun b hb => h b (by simp [hb]))

/-- Terms with right annotations. -/
theorem appr_of_ann {A : List (Ann R K)} (h : ∀ a ∈ A, a.Ok F) {n : ℕ} (hn : ∀ a ∈ A, a.n ≤ n) :
    Appr F n (A.map (·.m)) (fsum A) (gsum A) := by
  induction A with
  | nil => exact ⟨by simp, by simp, by simp, by simp⟩
  | cons a A ih =>
    obtain ⟨h1, h2, h3, h4⟩ := ih (fun b hb => h b (by simp [hb])) (fun b hb => hn b (by simp [hb]))
    have ha : Near F n a.m.coeff a.x a.b := (h a (by simp)).weaken (hn a (by simp))
    refine ⟨?_, fun d => ?_, fun d => ?_, fun d => ?_⟩
    · intro m hm
      rcases List.mem_cons.mp hm with rfl | hm
      · exact ha.fin
      · exact h1 m hm
    · have := h2 d
      simp only [List.map_cons, vden_cons, fsum_cons, gsum_cons, coeff_add, vterm, coeff_monomial]
      by_cases hd : a.m.degs = d
      · simp only [hd, if_true]
        have h5 := abs_add_le (F.val a.m.coeff - a.x) (coeff d (vden F (A.map (·.m))) - coeff d (fsum A))
        have e1 : F.val a.m.coeff + coeff d (vden F (A.map (·.m))) - (a.x + coeff d (fsum A)) =
          (F.val a.m.coeff - a.x) + (coeff d (vden F (A.map (·.m))) - coeff d (fsum A)) := by ring
        rw [e1]
        have := ha.err
        linarith
      · simpa only [hd, if_false, zero_add] using this
    · have := h3 d
      simp only [fsum_cons, gsum_cons, coeff_add, coeff_monomial]
      by_cases hd : a.m.degs = d
      · simp only [hd, if_true]
        exact (abs_add_le _ _).trans (add_le_add ha.le this)
      · simpa only [hd, if_false, zero_add] using this
    · have := h4 d
      simp only [List.map_cons, aden_cons, gsum_cons, coeff_add, aterm, coeff_monomial]
      by_cases hd : a.m.degs = d
      · simp only [hd, if_true]
        have := ha.abs_le
        linarith
      · simpa only [hd, if_false, zero_add] using this

/-- The annotation of given terms. -/
def selfAnn (F : RoundModel R K) (m : Mono R) : Ann R K := ⟨m, 0, F.val m.coeff, |F.val m.coeff|⟩

theorem fsum_self (l : List (Mono R)) : fsum (l.map (selfAnn F)) = vden F l := by
  induction l with
  | nil => rfl
  | cons m l ih => rw [List.map_cons, fsum_cons, vden_cons, ih]; rfl

theorem gsum_self (l : List (Mono R)) : gsum (l.map (selfAnn F)) = aden F l := by
  induction l with
  | nil => rfl
  | cons m l ih => rw [List.map_cons, gsum_cons, aden_cons, ih]; rfl

/-! ## Simplify -/

variable {P : Var R → Prop} {D : Set (ℕ →₀ ℕ)}

/-- Matching terms are alike. -/
theorem GoodM.key_eq_of_matches (hD : RearrFree D) {m r : Mono R} (hm : GoodM P D m) (hr : GoodM P D r)
    (h : ShapeMatch m.shape r.shape) : m.rkey = r.rkey := by
  have h1 : m.matchesFormOf r = .ok true := by
    rw [Mono.matches_shape hm.canon.len hr.canon.len]; simp [h]
  have hre := Mono.matches_rearr hm.canon hr.canon h1
  refine Prod.ext ?_ h.2.1
  show m.degs = r.degs
  rcases hm.degs with h2 | h2
  · have h3 : r.vars = [] := by
      rw [← List.length_eq_zero_iff]
      have := h.1
      simp only [Mono.shape, h2, List.length_nil] at this
      exact this.symm
    rw [hm.canon.degs_eq_zero.mpr h2, hr.canon.degs_eq_zero.mpr h3]
  · rcases hr.degs with h3 | h3
    · have h4 : m.vars = [] := by
        rw [← List.length_eq_zero_iff]
        have := h.1
        simp only [Mono.shape, h3, List.length_nil] at this
        exact this
      rw [hm.canon.degs_eq_zero.mpr h4, hr.canon.degs_eq_zero.mpr h3]
    · exact hD _ h2 _ h3 hre

/-- Terms that are alike match. -/
theorem shapeMatch_of_key {m r : Mono R} (hm : m.Canon) (hr : r.Canon) (h : m.rkey = r.rkey) :
    ShapeMatch m.shape r.shape := by
  have h1 : m.degs = r.degs := congrArg Prod.fst h
  have h2 : m.exps = r.exps := congrArg Prod.snd h
  refine ⟨?_, h2, fun v hv => ?_⟩
  · show m.vars.length = r.vars.length
    rw [← hm.len, ← hr.len, h2]
  · have h3 : v.id ∈ m.degs.support := by
      rw [hm.support, List.mem_toFinset]
      exact List.mem_map_of_mem hv
    rw [h1, hr.support, List.mem_toFinset] at h3
    exact h3

theorem NoMatch.tidy {l : List (Mono R)} (hl : ∀ m ∈ l, m.Canon) (h : NoMatch l) : TidyL l := by
  unfold TidyL
  unfold NoMatch at h
  rw [List.pairwise_map] at h
  rw [List.Nodup, List.pairwise_map]
  exact (List.Pairwise.and_mem.mp h).imp fun ⟨ha, hb, h⟩ he => h (shapeMatch_of_key (hl _ ha) (hl _ hb) he)

/-- One more term.  `N` counts the terms so far by their keys. -/
theorem insert_ann (hD : RearrFree D) {k n0 : ℕ} {G : MvPolynomial ℕ K} {a : Ann R K} (ha : a.Ok F)
    (hg : GoodM P D a.m) (hn : a.n ≤ n0) (N : (ℕ →₀ ℕ) × List Int → ℕ) (hN : N a.m.rkey ≤ k)
    (hG : ∀ d, F.Small ((1 + F.u) ^ (n0 + k) * coeff d G)) (A : List (Ann R K)) (hA : ∀ e ∈ A, e.Ok F)
    (hAg : ∀ e ∈ A, GoodM P D e.m)
    (hAn : ∀ e ∈ A, 1 ≤ N e.m.rkey ∧ e.n + 1 ≤ n0 + N e.m.rkey)
    (hle : ∀ d, coeff d (gsum A) + coeff d (monomial a.m.degs a.b) ≤ coeff d G) {out : List (Mono R)}
    (h : insertMono a.m (A.map (·.m)) = .ok out) :
    ∃ A' : List (Ann R K), A'.map (·.m) = out ∧ (∀ e ∈ A', e.Ok F) ∧
      fsum A' = fsum A + monomial a.m.degs a.x ∧ gsum A' = gsum A + monomial a.m.degs a.b ∧
      ∀ e ∈ A', 1 ≤ N e.m.rkey + (if e.m.rkey = a.m.rkey then 1 else 0) ∧
        e.n + 1 ≤ n0 + (N e.m.rkey + (if e.m.rkey = a.m.rkey then 1 else 0)) := by
  classical
  induction A generalizing out with
  | nil =>
    simp only [List.map_nil, insertMono, Go.pure_eq, Except.ok.injEq] at h
    subst h
    refine ⟨[a], rfl, by simpa using ha, by simp, by simp, ?_⟩
    intro e he
    rw [List.mem_singleton] at he
    subst he
    simp only [if_true]
    omega
  | cons e A ih =>
    have he := hAg e (by simp)
    have hek := hA e (by simp)
    rw [List.map_cons] at h
    unfold insertMono at h
    rw [Mono.matches_shape he.canon.len hg.canon.len, Go.ok_bind] at h
    by_cases hb : ShapeMatch e.m.shape a.m.shape
    · simp only [hb, decide_true, if_true, Go.pure_eq, Except.ok.injEq] at h
      subst h
      have hkey := GoodM.key_eq_of_matches hD he hg hb
      have hdeg : e.m.degs = a.m.degs := congrArg Prod.fst hkey
      have hen := hAn e (by simp)
      rw [hkey] at hen
      obtain ⟨j, hj1, hj2, hj3⟩ : ∃ j, e.n ≤ j ∧ a.n ≤ j ∧ j + 1 ≤ n0 + N a.m.rkey := by
        exact ⟨max e.n a.n, le_max_left _ _, le_max_right _ _, by
          rcases max_choice e.n a.n with h | h <;> rw [h] <;> omega⟩
      have hsm : F.Small ((1 + F.u) ^ j * (e.b + a.b)) := by
        refine F.small_mono ?_ (hG a.m.degs)
        have h0 : 0 ≤ e.b + a.b := add_nonneg hek.nonneg ha.nonneg
        have h1 : e.b + a.b ≤ coeff a.m.degs G := by
          have h2 := hle a.m.degs
          rw [gsum_cons, coeff_add, hdeg, coeff_monomial, coeff_monomial, if_pos rfl, if_pos rfl] at h2
          have h3 := gsum_nonneg (fun b hb => hA b (by simp [hb])) a.m.degs (A := A)
          linarith
        have h2 : (1 + F.u) ^ j ≤ (1 + F.u) ^ (n0 + k) := pow_u_mono F (by omega)
        have h3 : 0 ≤ (1 + F.u) ^ j := le_trans zero_le_one (one_le_pow_u F j)
        rw [abs_of_nonneg (mul_nonneg h3 h0), abs_of_nonneg (mul_nonneg (h3.trans h2) (h0.trans h1))]
        exact mul_le_mul h2 h1 h0 (h3.trans h2)
      have hnear := (hek.weaken hj1).add (ha.weaken hj2) hsm
      refine ⟨⟨{ e.m with coeff := GoNum.add e.m.coeff a.m.coeff }, j + 1, e.x + a.x, e.b + a.b⟩ :: A,
        rfl, ?_, ?_, ?_, ?_⟩
      · intro x hx
        rcases List.mem_cons.mp hx with rfl | hx
        · exact hnear
        · exact hA x (by simp [hx])
      · rw [fsum_cons, fsum_cons]
        show monomial e.m.degs (e.x + a.x) + fsum A = _
        rw [hdeg, map_add]; ring
      · rw [gsum_cons, gsum_cons]
        show monomial e.m.degs (e.b + a.b) + gsum A = _
        rw [hdeg, map_add]; ring
      · intro x hx
        rcases List.mem_cons.mp hx with rfl | hx
        · show 1 ≤ N e.m.rkey + (if e.m.rkey = a.m.rkey then 1 else 0) ∧ _
          rw [if_pos hkey, hkey]
          refine ⟨by omega, ?_⟩
          show j + 1 + 1 ≤ n0 + (N e.m.rkey + (if e.m.rkey = a.m.rkey then 1 else 0))
          rw [if_pos hkey, hkey]
          omega
        · have := hAn x (by simp [hx])
          omega
    · simp only [hb, decide_false, Bool.false_eq_true, if_false] at h
      obtain ⟨o, ho, h⟩ := Go.bind_eq_ok.mp h
      simp only [Go.pure_eq, Except.ok.injEq] at h
      subst h
      obtain ⟨A', h1, h2, h3, h4, h5⟩ := ih (fun x hx => hA x (by simp [hx])) (fun x hx => hAg x (by simp [hx]))
        (fun x hx => hAn x (by simp [hx])) (fun d => by
          have h2 := hle d
          rw [gsum_cons, coeff_add] at h2
          have h3 : 0 ≤ coeff d (monomial e.m.degs e.b) := coeff_monomial_nonneg hek.nonneg
          linarith) ho
      refine ⟨e :: A', by rw [List.map_cons, h1], ?_, ?_, ?_, ?_⟩
      · intro x hx
        rcases List.mem_cons.mp hx with rfl | hx
        · exact hek
        · exact h2 x hx
      · rw [fsum_cons, fsum_cons, h3]; ring
      · rw [gsum_cons, gsum_cons, h4]; ring
      · intro x hx
        rcases List.mem_cons.mp hx with rfl | hx
        · have := hAn x (by simp)
          omega
        · exact h5 x hx

end Verif
