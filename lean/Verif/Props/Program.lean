import Verif.Lemmas.Neat
import Verif.Props.Coeffs
import Verif.Props.Constr
import Verif.Props.NormalForm
import Verif.Witness

/-!
# C62: programs that build scalars are exact from end to end

The other files speak of one call.  Here a caller makes any number of calls, each on the results of
earlier ones, and the claim is about the last result.
-/

set_option linter.unusedSectionVars false

namespace Verif

open MvPolynomial

/-! ## Programs -/

/-- What a caller does to obtain a scalar: constants, variables, and the calls `Plus`, `Minus`,
`Multiply`, `Power`, `AsSimplifiedExpression`, `DerivativeWrt`, `Substitute` and
`SubstituteAccordingTo` on scalars obtained in the same way. -/
inductive Prog (R : Type) : Type
  | k (c : R)
  | var (v : Var R)
  | plus (a b : Prog R)
  | minus (a b : Prog R)
  | mul (a b : Prog R)
  | pow (a : Prog R) (n : ℕ)
  | simp (a : Prog R)
  | deriv (a : Prog R) (v : Var R)
  | subst (a : Prog R) (v : Var R) (s : Prog R)
  | substMap (a : Prog R) (n : ℕ) (key : Fin n → Var R) (val : Fin n → Prog R)

variable {R : Type}

/-- The calls the program makes. -/
def Prog.run [GoNum R] : Prog R → Go (Scalar R)
  | .k c => .ok (.k c)
  | .var v => .ok (.var v)
  | .plus a b => do (← a.run).plus (← b.run)
  | .minus a b => do (← a.run).minus (← b.run)
  | .mul a b => do (← a.run).mul (← b.run)
  | .pow a n => do (← a.run).power n
  | .simp a => do (← a.run).asSimplified
  | .deriv a v => do (← a.run).derivative v
  | .subst a v s => do (← a.run).substitute v (← s.run)
  | .substMap a n key val => do
    let e ← a.run
    let sm ← (List.finRange n).mapM (fun j => do
      let s ← (val j).run
      return (key j, s))
    e.substMap sm

open Classical in
/-- The polynomial the program is meant to compute. -/
noncomputable def Prog.meaning [CommRing R] : Prog R → MvPolynomial ℕ R
  | .k c => C c
  | .var v => X v.id
  | .plus a b => a.meaning + b.meaning
  | .minus a b => a.meaning - b.meaning
  | .mul a b => a.meaning * b.meaning
  | .pow a n => a.meaning ^ n
  | .simp a => a.meaning
  | .deriv a v => pderiv v.id a.meaning
  | .subst a v s => bind₁ (fun i => if i = v.id then s.meaning else X i) a.meaning
  | .substMap a n key val =>
    bind₁ (fun i => if h : ∃ j : Fin n, (key j).id = i then (val h.choose).meaning else X i) a.meaning

/-- The variables the program names. -/
def Prog.Names : Prog R → Var R → Prop
  | .k _, _ => False
  | .var v, w => w = v
  | .plus a b, w | .minus a b, w | .mul a b, w => a.Names w ∨ b.Names w
  | .pow a _, w | .simp a, w => a.Names w
  | .deriv a v, w => a.Names w ∨ w = v
  | .subst a v s, w => a.Names w ∨ w = v ∨ s.Names w
  | .substMap a _ key val, w => a.Names w ∨ (∃ j, w = key j) ∨ ∃ j, (val j).Names w

/-- All variables the program names pass `Check`, and two of them with the same ID are the same
variable (as `NewVariable` makes them). -/
structure Prog.VarsOK [GoNum R] (p : Prog R) : Prop where
  ok : ∀ v, p.Names v → v.OK
  same : ∀ v w, p.Names v → p.Names w → v.id = w.id → v = w

/-- No substitution map has the same key twice (as in every Go map). -/
def Prog.Keys : Prog R → Prop
  | .k _ | .var _ => True
  | .plus a b | .minus a b | .mul a b => a.Keys ∧ b.Keys
  | .pow a _ | .simp a | .deriv a _ => a.Keys
  | .subst a _ s => a.Keys ∧ s.Keys
  | .substMap a _ key val => a.Keys ∧ Function.Injective key ∧ ∀ j, (val j).Keys

/-! ## What terms can appear -/

/-- A set of exponent vectors in which no term is confused with another. -/
structure Node (D : Set (ℕ →₀ ℕ)) : Prop where
  flat : D ⊆ flat
  zero : (0 : ℕ →₀ ℕ) ∈ D

/-- `p.Fits D`: every intermediate result of `p` has terms of one shape only, and the last has terms
in `D`.  One rule per call. -/
inductive Prog.Fits : Prog R → Set (ℕ →₀ ℕ) → Prop
  | k {c D} (h : Node D) : Fits (.k c) D
  | var {v D} (h : Node D) (hv : Finsupp.single v.id 1 ∈ D) : Fits (.var v) D
  | plus {a b A B D} (ha : Fits a A) (hb : Fits b B) (h : Node D) (h1 : A ⊆ D) (h2 : B ⊆ D) :
      Fits (.plus a b) D
  | minus {a b A B D} (ha : Fits a A) (hb : Fits b B) (h : Node D) (h1 : A ⊆ D) (h2 : B ⊆ D) :
      Fits (.minus a b) D
  | mul {a b A B D} (ha : Fits a A) (hb : Fits b B) (h : Node D) (h1 : ProdIn A B D) :
      Fits (.mul a b) D
  | pow {a n A D} (ha : Fits a A) (h : Node D) (h1 : {d | NSum A n d} ⊆ D) : Fits (.pow a n) D
  | simp {a A D} (ha : Fits a A) (h : Node D) (h1 : A ⊆ D) : Fits (.simp a) D
  | deriv {a v A D} (ha : Fits a A) (h : Node D)
      (h1 : ∀ d, d + Finsupp.single v.id 1 ∈ A → d ∈ D) : Fits (.deriv a v) D
  | subst {a v s A S D} (ha : Fits a A) (hs : Fits s S) (h : Node D)
      (h1 : ∀ d ∈ A, SubstTerms (substTermsFor v S) d ⊆ D) : Fits (.subst a v s) D
  | substMap {a n key val A D} {S : Fin n → Set (ℕ →₀ ℕ)} (ha : Fits a A)
      (hs : ∀ j, Fits (val j) (S j)) (h : Node D)
      (h1 : ∀ d ∈ A, SubstTerms (fun i => {t | (∃ j, (key j).id = i ∧ t ∈ S j) ∨
        ((∀ j, (key j).id ≠ i) ∧ t = Finsupp.single i 1)}) d ⊆ D) :
      Fits (.substMap a n key val) D

theorem Prog.Fits.node {p : Prog R} {D : Set (ℕ →₀ ℕ)} (h : p.Fits D) : Node D := by
  cases h <;> assumption

theorem Node.free {D : Set (ℕ →₀ ℕ)} (h : Node D) : RearrFree D := rearrFree_flat.mono h.flat

theorem mapM_pairs [GoNum R] {α : Type} (l : List α) (key : α → Var R) {f : α → Go (Scalar R)}
    {g : α → Scalar R} (h : ∀ a ∈ l, f a = .ok (g a)) :
    l.mapM (fun j => do
      let s ← f j
      return (key j, s)) = .ok (l.map (fun j => (key j, g j))) := by
  induction l with
  | nil => rfl
  | cons a l ih =>
    rw [List.mapM_cons, h a (by simp), ih (fun b hb => h b (by simp [hb]))]
    rfl

variable [Field R] [LinearOrder R]

/-- What is known of the result of a program: it is well-formed, its terms are where `Fits` says,
it denotes the meaning, names no new variable, and writes every term once. -/
structure Exact (p : Prog R) (D : Set (ℕ →₀ ℕ)) (e : Scalar R) : Prop where
  run : p.run = .ok e
  canon : e.Canon
  terms : e.TermsIn D
  den : e.den = p.meaning
  names : ∀ w, e.Mentions w → p.Names w
  noConst : e.NoConst
  distinct : e.Distinct

theorem Prog.run_exact {p : Prog R} {D : Set (ℕ →₀ ℕ)} (hf : p.Fits D) {U : Var R → Prop}
    (hU : ∀ v, U v → v.OK) (hc : ∀ v w, U v → U w → v.id = w.id → v = w)
    (hp : ∀ v, p.Names v → U v) (hk : p.Keys) : ∃ e, Exact p D e := by
  induction hf with
  | @k c D h =>
    exact ⟨.k c, rfl, trivial, trivial, rfl, fun w h => h.elim, (by rintro m ⟨⟩), trivial⟩
  | @var v D h hv =>
    exact ⟨.var v, rfl, hU v (hp v rfl), hv, rfl, (by rintro w rfl; rfl), (by rintro m ⟨⟩), trivial⟩
  | @plus a b A B D ha hb h h1 h2 iha ihb =>
    obtain ⟨x, hx⟩ := iha (fun v hv => hp v (.inl hv)) hk.1
    obtain ⟨y, hy⟩ := ihb (fun v hv => hp v (.inr hv)) hk.2
    obtain ⟨r, r1, r2, r3, r4⟩ := plus_denotes_sum_partial h.free hx.canon hy.canon
      (hx.terms.mono h1) (hy.terms.mono h2)
    obtain ⟨r', r1', -, r5⟩ := plus_total hx.canon hy.canon
    obtain rfl : r = r' := by rw [r1] at r1'; cases r1'; rfl
    have hn := plus_noConst hx.canon hy.canon r1
    refine ⟨r, ?_, r2, r3, ?_, ?_, hn.1, distinct_of_fix r2 (r3.mono h.flat) (fun _ _ => hn.2)⟩
    · simp only [Prog.run, hx.run, hy.run, Go.ok_bind, r1]
    · rw [r4, hx.den, hy.den]; rfl
    · exact fun w hw => (r5 w hw).imp (hx.names w) (hy.names w)
  | @minus a b A B D ha hb h h1 h2 iha ihb =>
    obtain ⟨x, hx⟩ := iha (fun v hv => hp v (.inl hv)) hk.1
    obtain ⟨y, hy⟩ := ihb (fun v hv => hp v (.inr hv)) hk.2
    obtain ⟨r, r1, r2, r3, r4⟩ := minus_denotes_difference_partial h.free hx.canon hy.canon
      (hx.terms.mono h1) (hy.terms.mono h2)
    obtain ⟨r', r1', -, r5⟩ := minus_total hx.canon hy.canon
    obtain rfl : r = r' := by rw [r1] at r1'; cases r1'; rfl
    have hn := minus_noConst hx.canon hy.canon r1
    refine ⟨r, ?_, r2, r3, ?_, ?_, hn.1, distinct_of_fix r2 (r3.mono h.flat) (fun _ _ => hn.2)⟩
    · simp only [Prog.run, hx.run, hy.run, Go.ok_bind, r1]
    · rw [r4, hx.den, hy.den]; rfl
    · exact fun w hw => (r5 w hw).imp (hx.names w) (hy.names w)
  | @mul a b A B D ha hb h h1 iha ihb =>
    obtain ⟨x, hx⟩ := iha (fun v hv => hp v (.inl hv)) hk.1
    obtain ⟨y, hy⟩ := ihb (fun v hv => hp v (.inr hv)) hk.2
    obtain ⟨r, r1, r2, r3, r4⟩ := mul_denotes_product_partial h1 h.free hx.canon hy.canon
      hx.terms hy.terms
    obtain ⟨r', r1', -, r5⟩ := mul_total hx.canon hy.canon
    obtain rfl : r = r' := by rw [r1] at r1'; cases r1'; rfl
    have hn := mul_noConst hx.canon hy.canon hx.noConst hy.noConst r1
    refine ⟨r, ?_, r2, r3, ?_, ?_, hn.1, distinct_of_fix r2 (r3.mono h.flat) hn.2⟩
    · simp only [Prog.run, hx.run, hy.run, Go.ok_bind, r1]
    · rw [r4, hx.den, hy.den]; rfl
    · exact fun w hw => (r5 w hw).imp (hx.names w) (hy.names w)
  | @pow a n A D ha h h1 iha =>
    obtain ⟨x, hx⟩ := iha hp hk
    have hn0 : (0 : ℤ) ≤ (n : ℤ) := Int.natCast_nonneg n
    obtain ⟨r, r1, r2, r3, r4⟩ := power_denotes_power_partial hx.canon hx.terms hn0
      (h.free.mono h1)
    obtain ⟨r', r1', -, r5⟩ := power_total hx.canon hn0
    obtain rfl : r = r' := by rw [r1] at r1'; cases r1'; rfl
    have hn := power_noConst hx.canon hx.noConst r1
    have r3' : r.TermsIn D := r3.mono h1
    refine ⟨r, ?_, r2, r3', ?_, ?_, hn.1, distinct_of_fix r2 (r3'.mono h.flat) hn.2⟩
    · simp only [Prog.run, hx.run, Go.ok_bind, r1]
    · rw [r4, hx.den]; rfl
    · exact fun w hw => hx.names w (r5 w hw)
  | @simp a A D ha h h1 iha =>
    obtain ⟨x, hx⟩ := iha hp hk
    obtain ⟨r, r1, r2, r3, r4⟩ := asSimplified_denotes_same_partial h.free hx.canon
      (hx.terms.mono h1)
    obtain ⟨r', r1', -, r5⟩ := asSimplified_total hx.canon
    obtain rfl : r = r' := by rw [r1] at r1'; cases r1'; rfl
    have hn := simp_noConst hx.canon r1
    refine ⟨r, ?_, r2, r3, ?_, ?_, hn.1, distinct_of_fix r2 (r3.mono h.flat) (fun _ _ => hn.2)⟩
    · simp only [Prog.run, hx.run, Go.ok_bind, r1]
    · rw [r4, hx.den]; rfl
    · exact fun w hw => hx.names w (r5 w hw)
  | @deriv a v A D ha h h1 iha =>
    obtain ⟨x, hx⟩ := iha (fun v hv => hp v (.inl hv)) hk
    have hv : v.OK := hU v (hp v (.inr rfl))
    obtain ⟨r, r1, r2, r4⟩ := derivative_denotes_pderiv hx.canon hv
    obtain ⟨r', r1', -, r5⟩ := derivative_total hx.canon hv
    obtain rfl : r = r' := by rw [r1] at r1'; cases r1'; rfl
    have hn := derivative_neat hx.canon hx.terms hv h1 r1
    refine ⟨r, ?_, r2, hn.1, ?_, ?_, hn.2.1, hn.2.2 hx.distinct⟩
    · simp only [Prog.run, hx.run, Go.ok_bind, r1]
    · rw [r4, hx.den]; rfl
    · exact fun w hw => .inl (hx.names w (r5 w hw))
  | @subst a v s A S D ha hs h h1 iha ihs =>
    obtain ⟨x, hx⟩ := iha (fun v hv => hp v (.inl hv)) hk.1
    obtain ⟨y, hy⟩ := ihs (fun v hv => hp v (.inr (.inr hv))) hk.2
    have hv : v.OK := hU v (hp v (.inr (.inl rfl)))
    have henv : SameEnv v x := by
      intro w hw hi
      rw [hc w v (hp w (.inl (hx.names w hw))) (hp v (.inr (.inl rfl))) hi]
    obtain ⟨r, r1, r2, r3, r4⟩ := substitute_denotes_bind_partial h.free hx.canon hv hy.canon henv
      hy.terms (fun d hd => h1 d (hasTerm_in hx.canon hx.terms ha.node.zero hd))
    obtain ⟨r', r1', -, r5⟩ := substitute_total hx.canon hv hy.canon
    obtain rfl : r = r' := by rw [r1] at r1'; cases r1'; rfl
    have hn := substitute_noConst hx.canon hx.noConst hy.canon hy.noConst r1
    refine ⟨r, ?_, r2, r3, ?_, ?_, hn.1, ?_⟩
    · simp only [Prog.run, hx.run, hy.run, Go.ok_bind, r1]
    · rw [r4, hx.den]
      unfold substFor
      simp only [hy.den]
      rfl
    · exact fun w hw => (r5 w hw).elim (fun h => .inl (hx.names w h))
        (fun h => .inr (.inr (hy.names w h)))
    · rcases hn.2 with hn | rfl
      · exact distinct_of_fix r2 (r3.mono h.flat) hn
      · exact hy.distinct
  | @substMap a n key val A D S ha hs h h1 iha ihs =>
    obtain ⟨x, hx⟩ := iha (fun v hv => hp v (.inl hv)) hk.1
    have hy' := fun j => ihs j (fun v hv => hp v (.inr (.inr ⟨j, hv⟩))) (hk.2.2 j)
    choose y hy using hy'
    have hkU : ∀ j, U (key j) := fun j => hp _ (.inr (.inl ⟨j, rfl⟩))
    have hinj : ∀ i j, (key i).id = (key j).id → i = j := fun i j hij =>
      hk.2.1 (hc _ _ (hkU i) (hkU j) hij)
    set sm : SubMap R := (List.finRange n).map (fun j => (key j, y j)) with hsm
    have hmem : ∀ kv, kv ∈ sm ↔ ∃ j, (key j, y j) = kv := by
      intro kv
      simp [hsm]
    have hok : ∀ kv ∈ sm, kv.1.OK ∧ kv.2.Canon := by
      rintro _ hkv
      obtain ⟨j, rfl⟩ := (hmem _).mp hkv
      exact ⟨hU _ (hkU j), (hy j).canon⟩
    have hnd : (sm.map (·.1)).Nodup := by
      rw [hsm, List.map_map]
      exact (List.nodup_finRange n).map hk.2.1
    have hUx : ∀ w, x.Mentions w → U w := fun w hw => hp w (.inl (hx.names w hw))
    have hφ : Describes sm x (fun i => open Classical in
        if h : ∃ j : Fin n, (key j).id = i then (val h.choose).meaning else X i) := by
      intro w hw
      constructor
      · intro s hs
        obtain ⟨j, hj⟩ := (hmem _).mp hs
        rw [Prod.mk.injEq] at hj
        obtain ⟨rfl, rfl⟩ := hj
        have hex : ∃ i : Fin n, (key i).id = (key j).id := ⟨j, rfl⟩
        simp only [dif_pos hex]
        rw [hinj _ _ hex.choose_spec, (hy j).den]
      · intro hno
        have hne : ¬ ∃ i : Fin n, (key i).id = w.id := by
          rintro ⟨i, hi⟩
          have := hc _ _ (hkU i) (hUx w hw) hi
          exact hno (y i) ((hmem _).mpr ⟨i, by rw [this]⟩)
        simp only [dif_neg hne]
    have hT : BoundsTerms sm x (fun i => {t | (∃ j, (key j).id = i ∧ t ∈ S j) ∨
        ((∀ j, (key j).id ≠ i) ∧ t = Finsupp.single i 1)}) := by
      intro w hw
      constructor
      · intro s hs
        obtain ⟨j, hj⟩ := (hmem _).mp hs
        rw [Prod.mk.injEq] at hj
        obtain ⟨rfl, rfl⟩ := hj
        exact (hy j).terms.mono (fun t ht => .inl ⟨j, rfl, ht⟩)
      · intro hno
        refine .inr ⟨fun i hi => ?_, rfl⟩
        have := hc _ _ (hkU i) (hUx w hw) hi
        exact hno (y i) ((hmem _).mpr ⟨i, by rw [this]⟩)
    obtain ⟨r, r1, r2, r3, r4⟩ := substMap_denotes_bind_partial h.free hx.canon hok hnd hφ hT
      (fun d hd => h1 d (hasTerm_in hx.canon hx.terms ha.node.zero hd))
    have r5 := substMap_mentions hx.canon hok r1
    have hn := substMap_noConst hx.canon (sm := sm) (by
      rintro _ hkv
      obtain ⟨j, rfl⟩ := (hmem _).mp hkv
      exact ⟨(hy j).canon, (hy j).noConst⟩) r1
    refine ⟨r, ?_, r2, r3, ?_, ?_, hn.1, ?_⟩
    · simp only [Prog.run, hx.run, Go.ok_bind]
      rw [mapM_pairs _ key (g := y) (fun j _ => (hy j).run), Go.ok_bind]
      exact r1
    · rw [r4, hx.den]; rfl
    · intro w hw
      rcases r5 w hw with h' | ⟨kv, hkv, h'⟩
      · exact .inl (hx.names w h')
      · obtain ⟨j, rfl⟩ := (hmem _).mp hkv
        exact .inr (.inr ⟨j, (hy j).names w h'⟩)
    · rcases hn.2 with hn | ⟨kv, hkv, rfl⟩
      · exact distinct_of_fix r2 (r3.mono h.flat) hn
      · obtain ⟨j, rfl⟩ := (hmem _).mp hkv
        exact (hy j).distinct

/-! ## Two families of programs -/

/-- The degree one expects of the result. -/
def Prog.deg {R : Type} : Prog R → ℕ
  | .k _ => 0
  | .var _ => 1
  | .plus a b | .minus a b => max a.deg b.deg
  | .mul a b => a.deg + b.deg
  | .pow a n => n * a.deg
  | .simp a => a.deg
  | .deriv a _ => a.deg - 1
  | .subst a _ s => a.deg * max 1 s.deg
  | .substMap a _ _ val => a.deg * max 1 (Finset.univ.sup fun j => (val j).deg)

/-- Every intermediate result has expected degree at most two. -/
def Prog.Quadratic {R : Type} : Prog R → Prop
  | .k _ | .var _ => True
  | .plus a b => a.Quadratic ∧ b.Quadratic
  | .minus a b => a.Quadratic ∧ b.Quadratic
  | .mul a b => a.Quadratic ∧ b.Quadratic ∧ a.deg + b.deg ≤ 2
  | .pow a n => a.Quadratic ∧ n * a.deg ≤ 2
  | .simp a => a.Quadratic
  | .deriv a _ => a.Quadratic
  | .subst a _ s => a.Quadratic ∧ s.Quadratic ∧ a.deg * max 1 s.deg ≤ 2
  | .substMap a _ _ val => a.Quadratic ∧ (∀ j, (val j).Quadratic) ∧
      a.deg * max 1 (Finset.univ.sup fun j => (val j).deg) ≤ 2

theorem Prog.Quadratic.deg_le {R : Type} {p : Prog R} (h : p.Quadratic) : p.deg ≤ 2 := by
  induction p with
  | k c => simp [Prog.deg]
  | var v => simp [Prog.deg]
  | plus a b iha ihb => exact max_le (iha h.1) (ihb h.2)
  | minus a b iha ihb => exact max_le (iha h.1) (ihb h.2)
  | mul a b iha ihb => exact h.2.2
  | pow a n iha => exact h.2
  | simp a iha => exact iha h
  | deriv a v iha => exact (Nat.sub_le _ _).trans (iha h)
  | subst a v s iha ihs => exact h.2.2
  | substMap a n key val iha ihs => exact h.2.2

theorem node_degLE {n : ℕ} (h : n ≤ 2) : Node (degLE n) :=
  ⟨(degLE_mono h).trans degLE_two_flat, by simp [degLE]⟩

theorem single_degLE (i : ℕ) {n : ℕ} (h : 1 ≤ n) : Finsupp.single i 1 ∈ degLE n := by
  show ((Finsupp.single i 1).sum fun _ e => e) ≤ n
  rw [Finsupp.sum_single_index rfl]
  exact h

/-- Programs of degree at most two fit. -/
theorem Prog.Quadratic.fits {R : Type} {p : Prog R} (h : p.Quadratic) : p.Fits (degLE p.deg) := by
  induction p with
  | k c => exact .k (node_degLE h.deg_le)
  | var v => exact .var (node_degLE h.deg_le) (single_degLE _ le_rfl)
  | plus a b iha ihb =>
    exact .plus (iha h.1) (ihb h.2) (node_degLE h.deg_le) (degLE_mono (le_max_left _ _))
      (degLE_mono (le_max_right _ _))
  | minus a b iha ihb =>
    exact .minus (iha h.1) (ihb h.2) (node_degLE h.deg_le) (degLE_mono (le_max_left _ _))
      (degLE_mono (le_max_right _ _))
  | mul a b iha ihb => exact .mul (iha h.1) (ihb h.2.1) (node_degLE h.deg_le) (prodIn_degLE _ _)
  | pow a n iha => exact .pow (iha h.1) (node_degLE h.deg_le) (nsum_degLE _ _)
  | simp a iha => exact .simp (iha h) (node_degLE h.deg_le) subset_rfl
  | deriv a v iha =>
    refine .deriv (iha h) (node_degLE h.deg_le) ?_
    intro d hd
    have hd' : ((d + Finsupp.single v.id 1).sum fun _ e => e) ≤ a.deg := hd
    rw [degree_add, Finsupp.sum_single_index rfl] at hd'
    show (d.sum fun _ e => e) ≤ a.deg - 1
    omega
  | subst a v s iha ihs =>
    refine .subst (iha h.1) (ihs h.2.1) (node_degLE h.deg_le) (fun d hd => ?_)
    refine substTerms_degLE (fun i => ?_) hd
    unfold substTermsFor
    split
    · exact degLE_mono (le_max_right _ _)
    · rintro _ rfl
      exact single_degLE _ (le_max_left _ _)
  | substMap a n key val iha ihs =>
    refine .substMap (iha h.1) (fun j => ihs j (h.2.1 j)) (node_degLE h.deg_le) (fun d hd => ?_)
    refine substTerms_degLE (fun i => ?_) hd
    rintro t (⟨j, -, ht⟩ | ⟨-, rfl⟩)
    · exact degLE_mono ((Finset.le_sup (f := fun j => (val j).deg) (Finset.mem_univ j)).trans
        (le_max_right _ _)) ht
    · exact single_degLE _ (le_max_left _ _)

/-- Every intermediate result is a polynomial, of any degree, in one variable, the last one in the
variable with ID `x`.  The variable may change at a substitution. -/
def Prog.OneVar {R : Type} : Prog R → ℕ → Prop
  | .k _, _ => True
  | .var v, x => v.id = x
  | .plus a b, x => a.OneVar x ∧ b.OneVar x
  | .minus a b, x => a.OneVar x ∧ b.OneVar x
  | .mul a b, x => a.OneVar x ∧ b.OneVar x
  | .pow a _, x => a.OneVar x
  | .simp a, x => a.OneVar x
  | .deriv a _, x => a.OneVar x
  | .subst a v s, x => (a.OneVar x ∨ a.OneVar v.id) ∧ s.OneVar x
  | .substMap a _ key val, x => (a.OneVar x ∨ ∃ j, a.OneVar (key j).id) ∧ ∀ j, (val j).OneVar x

theorem node_univ1 (x : ℕ) : Node (univ1 x) := ⟨univ1_flat x, by simp [univ1]⟩

theorem single_univ1 (x n : ℕ) : Finsupp.single x n ∈ univ1 x := Finsupp.support_single_subset

/-- Programs in one variable fit. -/
theorem Prog.OneVar.fits {R : Type} {p : Prog R} {x : ℕ} (h : p.OneVar x) : p.Fits (univ1 x) := by
  induction p generalizing x with
  | k c => exact .k (node_univ1 x)
  | var v =>
    refine .var (node_univ1 x) ?_
    rw [show v.id = x from h]
    exact single_univ1 x 1
  | plus a b iha ihb => exact .plus (iha h.1) (ihb h.2) (node_univ1 x) subset_rfl subset_rfl
  | minus a b iha ihb => exact .minus (iha h.1) (ihb h.2) (node_univ1 x) subset_rfl subset_rfl
  | mul a b iha ihb => exact .mul (iha h.1) (ihb h.2) (node_univ1 x) (prodIn_univ1 x)
  | pow a n iha => exact .pow (iha h) (node_univ1 x) (nsum_univ1 x n)
  | simp a iha => exact .simp (iha h) (node_univ1 x) subset_rfl
  | deriv a v iha =>
    refine .deriv (iha h) (node_univ1 x) ?_
    intro d hd i hi
    refine hd (Finsupp.mem_support_iff.mpr ?_)
    rw [Finsupp.mem_support_iff] at hi
    rw [Finsupp.add_apply]
    omega
  | subst a v s iha ihs =>
    obtain ⟨y, hy, hyx⟩ : ∃ y, a.OneVar y ∧ (y = x ∨ y = v.id) := by
      rcases h.1 with h' | h'
      · exact ⟨_, h', .inl rfl⟩
      · exact ⟨_, h', .inr rfl⟩
    refine .subst (iha hy) (ihs h.2) (node_univ1 x) (fun d hd => substTerms_univ1 fun i hi => ?_)
    have hi' : i = y := Finset.mem_singleton.mp (hd hi)
    unfold substTermsFor
    split
    · exact subset_rfl
    · rename_i hne
      rcases hyx with rfl | rfl
      · rintro _ rfl
        rw [hi']
        exact single_univ1 _ 1
      · exact absurd hi' hne
  | substMap a n key val iha ihs =>
    obtain ⟨y, hy, hyx⟩ : ∃ y, a.OneVar y ∧ (y = x ∨ ∃ j, (key j).id = y) := by
      rcases h.1 with h' | ⟨j, h'⟩
      · exact ⟨_, h', .inl rfl⟩
      · exact ⟨_, h', .inr ⟨j, rfl⟩⟩
    refine .substMap (iha hy) (fun j => ihs j (h.2 j)) (node_univ1 x)
      (fun d hd => substTerms_univ1 fun i hi => ?_)
    have hi' : i = y := Finset.mem_singleton.mp (hd hi)
    rintro t (⟨j, -, ht⟩ | ⟨hno, rfl⟩)
    · exact ht
    · rcases hyx with rfl | ⟨j, hj⟩
      · rw [hi']
        exact single_univ1 _ 1
      · exact absurd (hj.trans hi'.symm) (hno j)

/-! ## C62 -/

/-- C62: a program whose intermediate results fit returns without panic, the result is well-formed,
denotes what the program means, and names only variables of the program. -/
theorem program_exact {p : Prog R} {D : Set (ℕ →₀ ℕ)} (hf : p.Fits D) (hv : p.VarsOK)
    (hk : p.Keys) : ∃ e, p.run = .ok e ∧ e.Canon ∧ e.den = p.meaning ∧
      ∀ w, e.Mentions w → p.Names w := by
  obtain ⟨e, h⟩ := Prog.run_exact hf hv.ok hv.same (fun _ h => h) hk
  exact ⟨e, h.run, h.canon, h.den, h.names⟩

/-- C62 for programs of degree at most two in any number of variables. -/
theorem program_quadratic {p : Prog R} (hq : p.Quadratic) (hv : p.VarsOK) (hk : p.Keys) :
    ∃ e, p.run = .ok e ∧ e.Canon ∧ e.den = p.meaning ∧ ∀ w, e.Mentions w → p.Names w :=
  program_exact hq.fits hv hk

/-- C62 for programs of any degree in one variable. -/
theorem program_oneVar {p : Prog R} {x : ℕ} (hq : p.OneVar x) (hv : p.VarsOK) (hk : p.Keys) :
    ∃ e, p.run = .ok e ∧ e.Canon ∧ e.den = p.meaning ∧ ∀ w, e.Mentions w → p.Names w :=
  program_exact hq.fits hv hk

/-- C62: the value of the result at every assignment. -/
theorem program_value {p : Prog R} {D : Set (ℕ →₀ ℕ)} (hf : p.Fits D) (hv : p.VarsOK)
    (hk : p.Keys) : ∃ e, p.run = .ok e ∧ ∀ ρ, e.value ρ = eval ρ p.meaning := by
  obtain ⟨e, h1, -, h3, -⟩ := program_exact hf hv hk
  exact ⟨e, h1, fun ρ => by unfold Scalar.value; rw [h3]⟩

/-- C62: `Constant` and `LinearCoeff` of the result are the coefficients of the meaning. -/
theorem program_coeffs {p : Prog R} {D : Set (ℕ →₀ ℕ)} (hf : p.Fits D) (hv : p.VarsOK)
    (hk : p.Keys) {ws : List (Var R)} (hne : ws ≠ []) (hok : ∀ w ∈ ws, w.OK)
    (hnd : (ws.map (·.id)).Nodup) (hcov : ∀ v, p.Names v → v.id ∈ ws.map (·.id)) :
    ∃ e, p.run = .ok e ∧ e.constant = .ok (coeff 0 p.meaning) ∧
      e.linearCoeff [ws] = .ok (ws.map fun w => coeff (Finsupp.single w.id 1) p.meaning) := by
  obtain ⟨e, h⟩ := Prog.run_exact hf hv.ok hv.same (fun _ h => h) hk
  refine ⟨e, h.run, ?_, ?_⟩
  · rw [constant_partial h.canon h.distinct.low, h.den]
  · rw [linearCoeff_partial h.canon h.distinct.low h.noConst hne hok hnd
      (fun v hv' => hcov v (h.names v hv')), h.den]

/-- C62: after `AsSimplifiedExpression` the kind of the result is decided by the meaning, and
`Degree` is the total degree of the meaning. -/
theorem program_simplified {p : Prog R} {D : Set (ℕ →₀ ℕ)} (hf : p.Fits D) (hv : p.VarsOK)
    (hk : p.Keys) : ∃ e, p.simp.run = .ok e ∧ e.den = p.meaning ∧ SmallestKind e ∧
      e.degree = .ok (p.meaning.totalDegree : ℤ) := by
  obtain ⟨e, h⟩ := Prog.run_exact hf hv.ok hv.same (fun _ h => h) hk
  have te := h.terms.mono hf.node.flat
  obtain ⟨r, h1, h2, h3⟩ := asSimplified_smallest_partial h.canon te
  refine ⟨r, ?_, by rw [h2, h.den], h3, ?_⟩
  · simp only [Prog.run, h.run, Go.ok_bind, h1]
  · obtain ⟨r', h1', g2, g3, -⟩ := asSimplified_denotes_same_partial rearrFree_flat h.canon te
    rw [h1, Except.ok.injEq] at h1'
    subst h1'
    rw [← h.den, ← h2]
    exact degree_eq_totalDegree_partial g2 g3 (simp_noConst h.canon h1).2

/-- C62: equality of programs is decided by subtracting: the difference is the constant zero
exactly if the two programs mean the same polynomial. -/
theorem program_equal {p q : Prog R} {D E F : Set (ℕ →₀ ℕ)} (hp : p.Fits D) (hq : q.Fits E)
    (hF : Node F) (hDF : D ⊆ F) (hEF : E ⊆ F) (hv : (p.minus q).VarsOK) (hk : (p.minus q).Keys) :
    (p.minus q).run = .ok (.k 0) ↔ p.meaning = q.meaning := by
  obtain ⟨e, h⟩ := Prog.run_exact (.minus hp hq hF hDF hEF) hv.ok hv.same (fun _ h => h) hk
  have hden : e.den = p.meaning - q.meaning := h.den
  rw [h.run, Except.ok.injEq]
  constructor
  · rintro rfl
    have : (0 : MvPolynomial ℕ R) = p.meaning - q.meaning := by rw [← hden]; simp
    exact sub_eq_zero.mp this.symm
  · intro hpq
    obtain ⟨x, hx⟩ := Prog.run_exact hp hv.ok hv.same (fun _ h => .inl h) hk.1
    obtain ⟨y, hy⟩ := Prog.run_exact hq hv.ok hv.same (fun _ h => .inr h) hk.2
    have hrun : x.minus y = .ok e := by
      have := h.run
      simpa only [Prog.run, hx.run, hy.run, Go.ok_bind] using this
    obtain ⟨r, h1, -, h3⟩ := asSimplified_smallest_partial h.canon (h.terms.mono hF.flat)
    rw [(minus_noConst hx.canon hy.canon hrun).2, Except.ok.injEq] at h1
    subst h1
    have h0 : e.den = C 0 := by rw [hden, hpq, sub_self, C_0]
    obtain ⟨c, rfl⟩ := h3.1.mpr ⟨0, h0⟩
    rw [Scalar.den_k] at h0
    rw [C_injective _ _ h0]

/-- C62: `LinearCoeff` and `Constant` of a program of degree at most one give back its value. -/
theorem program_affine {p : Prog R} (hq : p.Quadratic) (hd : p.deg ≤ 1) (hv : p.VarsOK)
    (hk : p.Keys) {ws : List (Var R)} (hne : ws ≠ []) (hok : ∀ w ∈ ws, w.OK)
    (hnd : (ws.map (·.id)).Nodup) (hcov : ∀ v, p.Names v → v.id ∈ ws.map (·.id)) :
    ∃ e L c, p.run = .ok e ∧ e.linearCoeff [ws] = .ok L ∧ e.constant = .ok c ∧
      ∀ ρ, eval ρ p.meaning = c + ((L.zip ws).map (fun lw => lw.1 * ρ lw.2.id)).sum := by
  obtain ⟨e, h⟩ := Prog.run_exact hq.fits hv.ok hv.same (fun _ h => h) hk
  have hlin : e.isLinear = .ok true := by
    obtain ⟨d, d1, d2⟩ := Scalar.degree_le_iff h.canon (n := 1)
    have := d2.mpr (h.terms.mono (degLE_mono hd))
    unfold Scalar.isLinear
    rw [d1]
    simpa using this
  obtain ⟨L, c, h1, h2, h3⟩ := affine_value_partial h.canon h.distinct.low h.noConst hlin hne hok hnd
    (fun v hv' => hcov v (h.names v hv'))
  refine ⟨e, L, c, h.run, h1, h2, fun ρ => ?_⟩
  rw [← h.den]
  exact h3 ρ

section Order
variable [IsStrictOrderedRing R]

/-- C62: comparing two programs of degree at most one, with `<=` or `>=`, and taking the linear
inequality representation over variables that cover both gives the half space that is meant. -/
theorem program_inequality {p q : Prog R} (hp : p.Quadratic) (hq : q.Quadratic) (dp : p.deg ≤ 1)
    (dq : q.deg ≤ 1) (hv : (p.minus q).VarsOK) (hk : (p.minus q).Keys) {ws : List (Var R)}
    (hne : ws ≠ []) (hok : ∀ w ∈ ws, w.OK) (hnd : (ws.map (·.id)).Nodup)
    (hcov : ∀ v, (p.minus q).Names v → v.id ∈ ws.map (·.id)) {s : Sense} (hs : s = .le ∨ s = .ge) :
    ∃ x y c A b, p.run = .ok x ∧ q.run = .ok y ∧ (Expr.s x).comparison (.s y) s = .ok (.s c) ∧
      c.linearIneq [ws] = .ok (A, b) ∧ A.length = ws.length ∧
      ∀ ρ, s.Holds (eval ρ p.meaning) (eval ρ q.meaning) ↔
        ((A.zip ws).map (fun aw => aw.1 * ρ aw.2.id)).sum ≤ b := by
  obtain ⟨x, hx⟩ := Prog.run_exact hp.fits hv.ok hv.same (fun _ h => .inl h) hk.1
  obtain ⟨y, hy⟩ := Prog.run_exact hq.fits hv.ok hv.same (fun _ h => .inr h) hk.2
  obtain ⟨A, b, h1, h2, h3⟩ := linearIneq_partial (c := ⟨x, y, s⟩)
    ⟨hx.canon, hy.canon, .inr hs⟩ hs
    ⟨hx.distinct.low, hy.distinct.low⟩
    ⟨hx.terms.mono (degLE_mono dp), hy.terms.mono (degLE_mono dq)⟩ hne hok hnd
    (fun v hv' => hcov v (hv'.imp (hx.names v) (hy.names v)))
  refine ⟨x, y, _, A, b, hx.run, hy.run,
    comparison_scalar (good_of_univ hx.canon).check (good_of_univ hy.canon).check s, h1, h2, ?_⟩
  intro ρ
  rw [← hx.den, ← hy.den]
  exact h3 ρ

/-- C62: the same for `=` and the linear equality representation. -/
theorem program_equality {p q : Prog R} (hp : p.Quadratic) (hq : q.Quadratic) (dp : p.deg ≤ 1)
    (dq : q.deg ≤ 1) (hv : (p.minus q).VarsOK) (hk : (p.minus q).Keys) {ws : List (Var R)}
    (hne : ws ≠ []) (hok : ∀ w ∈ ws, w.OK) (hnd : (ws.map (·.id)).Nodup)
    (hcov : ∀ v, (p.minus q).Names v → v.id ∈ ws.map (·.id)) :
    ∃ x y c A b, p.run = .ok x ∧ q.run = .ok y ∧ (Expr.s x).eqTo (.s y) = .ok (.s c) ∧
      c.linearEq [ws] = .ok (A, b) ∧ A.length = ws.length ∧
      ∀ ρ, eval ρ p.meaning = eval ρ q.meaning ↔
        ((A.zip ws).map (fun aw => aw.1 * ρ aw.2.id)).sum = b := by
  obtain ⟨x, hx⟩ := Prog.run_exact hp.fits hv.ok hv.same (fun _ h => .inl h) hk.1
  obtain ⟨y, hy⟩ := Prog.run_exact hq.fits hv.ok hv.same (fun _ h => .inr h) hk.2
  obtain ⟨A, b, h1, h2, h3⟩ := linearEq_partial (c := ⟨x, y, .eq⟩)
    ⟨hx.canon, hy.canon, .inl rfl⟩ rfl
    ⟨hx.distinct.low, hy.distinct.low⟩
    ⟨hx.terms.mono (degLE_mono dp), hy.terms.mono (degLE_mono dq)⟩ hne hok hnd
    (fun v hv' => hcov v (hv'.imp (hx.names v) (hy.names v)))
  refine ⟨x, y, _, A, b, hx.run, hy.run,
    comparison_scalar (good_of_univ hx.canon).check (good_of_univ hy.canon).check .eq, h1, h2, ?_⟩
  intro ρ
  rw [← hx.den, ← hy.den]
  exact h3 ρ

end Order

/-! ## The conditions cannot be dropped -/

/-- `x^2*y + x*y^2` -/
def wCubic : Prog ℚ :=
  .plus (.mul (.pow (.var wx) 2) (.var wy)) (.mul (.var wx) (.pow (.var wy) 2))

theorem varsOK_of {p : Prog ℚ} (h : ∀ v, p.Names v → ∃ i, v = wv i) : p.VarsOK where
  ok v hv := by
    obtain ⟨i, rfl⟩ := h v hv
    exact wv_ok i
  same v w hv hw hi := by
    obtain ⟨i, rfl⟩ := h v hv
    obtain ⟨j, rfl⟩ := h w hw
    rw [show i = j from hi]

/-- C62 without a condition on the terms is false: the program `x^2*y + x*y^2` returns `2*x^2*y`. -/
theorem program_false :
    ¬ ∀ p : Prog ℚ, p.VarsOK → p.Keys → ∃ e, p.run = .ok e ∧ e.den = p.meaning := by
  intro h
  obtain ⟨e, h1, h2⟩ := h wCubic (varsOK_of (by
    rintro v ((rfl | rfl) | (rfl | rfl)) <;> exact ⟨_, rfl⟩)) ⟨⟨trivial, trivial⟩, trivial, trivial⟩
  have hr : wCubic.run = .ok (.mono (wm2 2 0 1 2 1)) := by decide +kernel
  rw [hr, Except.ok.injEq] at h1
  subst h1
  rw [Scalar.den_mono, Mono.den, wm2_degs] at h2
  have := congrArg (eval (fun i => if i = 0 then (2 : ℚ) else 1)) h2
  simp [wCubic, Prog.meaning, wm2, wv, eval_monomial, Finsupp.prod_fintype] at this
  norm_num at this

/-- C62 without the condition that variables with one ID are one variable is false: the variable of
another environment is not replaced. -/
theorem program_same_false :
    ¬ ∀ p : Prog ℚ, p.Quadratic → (∀ v, p.Names v → v.OK) → p.Keys →
      ∃ e, p.run = .ok e ∧ e.den = p.meaning := by
  intro h
  obtain ⟨e, h1, h2⟩ := h (.subst (.var { wx with env := 1 }) wx (.k 5))
    ⟨trivial, trivial, by decide⟩ (by rintro v (rfl | rfl | ⟨⟨⟩⟩) <;> exact wv_ok 0)
    ⟨trivial, trivial⟩
  have hr : (Prog.subst (.var { wx with env := 1 }) wx (.k 5)).run =
      .ok (.var { wx with env := 1 }) := by decide +kernel
  rw [hr, Except.ok.injEq] at h1
  subst h1
  have := congrArg (eval (fun _ => (0 : ℚ))) h2
  simp [Prog.meaning, wv] at this

/-! ## Examples -/

/-- `(x + y)^2` with the derivative `1 - 2*y` of `y - y*y` put for `x`, minus `3*z` -/
def wQuad : Prog ℚ :=
  .minus (.subst (.pow (.plus (.var wx) (.var wy)) 2) wx
    (.deriv (.minus (.var wy) (.mul (.var wy) (.var wy))) wy)) (.mul (.k 3) (.var wz))

theorem wQuad_quadratic : wQuad.Quadratic := by
  simp [wQuad, Prog.Quadratic, Prog.deg]

theorem wQuad_vars : wQuad.VarsOK := varsOK_of (by
  rintro v (((rfl | rfl) | rfl | (rfl | (rfl | rfl)) | rfl) | (⟨⟨⟩⟩ | rfl)) <;> exact ⟨_, rfl⟩)

theorem wQuad_keys : wQuad.Keys := by simp [wQuad, Prog.Keys]

example : ∃ e, wQuad.run = .ok e ∧ e.Canon ∧ e.den = wQuad.meaning ∧
    ∀ w, e.Mentions w → wQuad.Names w :=
  program_quadratic wQuad_quadratic wQuad_vars wQuad_keys

example : ∃ e, wQuad.run = .ok e ∧ e.constant = .ok (coeff 0 wQuad.meaning) ∧
    e.linearCoeff [[wx, wy, wz]] =
      .ok ([wx, wy, wz].map fun w => coeff (Finsupp.single w.id 1) wQuad.meaning) :=
  program_coeffs wQuad_quadratic.fits wQuad_vars wQuad_keys (by simp)
    (by simp [wv_ok]) (by decide) (by
      rintro v (((rfl | rfl) | rfl | (rfl | (rfl | rfl)) | rfl) | (⟨⟨⟩⟩ | rfl)) <;> decide)

/-- The program runs in the model: `1 - 2*y + y*y - 3*z`. -/
example : wQuad.run = .ok (.poly ⟨[wm0 1, wm1 (-2) 1 1, wm1 1 1 2, wm1 (-3) 2 1]⟩) := by
  decide +kernel

/-- `(x + 1)^7` with `x := y^3 - y`, simultaneously `y := 0` -/
def wUni : Prog ℚ :=
  .substMap (.pow (.plus (.var wx) (.k 1)) 7) 2 ![wx, wy]
    ![.minus (.pow (.var wy) 3) (.var wy), .k 0]

theorem wUni_oneVar : wUni.OneVar 1 := by
  refine ⟨.inr ⟨0, rfl, trivial⟩, ?_⟩
  intro j
  fin_cases j
  · exact ⟨rfl, rfl⟩
  · trivial

theorem wUni_vars : wUni.VarsOK := varsOK_of (by
  rintro v ((rfl | ⟨⟨⟩⟩) | ⟨j, rfl⟩ | ⟨j, h⟩)
  · exact ⟨0, rfl⟩
  · fin_cases j
    · exact ⟨0, rfl⟩
    · exact ⟨1, rfl⟩
  · fin_cases j
    · rcases h with rfl | rfl <;> exact ⟨1, rfl⟩
    · exact h.elim)

theorem wUni_keys : wUni.Keys := by
  refine ⟨⟨trivial, trivial⟩, by decide, fun j => ?_⟩
  fin_cases j
  · exact ⟨trivial, trivial⟩
  · trivial

example : ∃ e, wUni.run = .ok e ∧ e.Canon ∧ e.den = wUni.meaning ∧
    ∀ w, e.Mentions w → wUni.Names w :=
  program_oneVar wUni_oneVar wUni_vars wUni_keys

/-- `x + y <= 2*x - 1` -/
example : ∃ x y c A b, (Prog.plus (.var wx) (.var wy)).run = .ok x ∧
    (Prog.minus (.mul (.k 2) (.var wx)) (.k (1 : ℚ))).run = .ok y ∧
    (Expr.s x).comparison (.s y) .le = .ok (.s c) ∧ c.linearIneq [[wx, wy]] = .ok (A, b) ∧
    A.length = 2 ∧ ∀ ρ, Sense.le.Holds (eval ρ (Prog.plus (.var wx) (.var wy)).meaning)
      (eval ρ (Prog.minus (.mul (.k 2) (.var wx)) (.k (1 : ℚ))).meaning) ↔
      ((A.zip [wx, wy]).map (fun aw => aw.1 * ρ aw.2.id)).sum ≤ b :=
  program_inequality (by simp [Prog.Quadratic]) (by simp [Prog.Quadratic, Prog.deg])
    (by decide) (by decide) (varsOK_of (by
      rintro v ((rfl | rfl) | ((⟨⟨⟩⟩ | rfl) | ⟨⟨⟩⟩)) <;> exact ⟨_, rfl⟩))
    (by simp [Prog.Keys]) (by simp) (by simp [wv_ok]) (by decide) (by
      rintro v ((rfl | rfl) | ((⟨⟨⟩⟩ | rfl) | ⟨⟨⟩⟩)) <;> decide) (.inl rfl)

/-- `(x + y)^2 = x^2 + 2*x*y + y^2`, found by the library. -/
example : (Prog.minus (.pow (.plus (.var wx) (.var wy)) 2)
    (.plus (.plus (.pow (.var wx) 2) (.mul (.k 2) (.mul (.var wx) (.var wy))))
      (.pow (.var wy) 2))).run = .ok (.k 0) := by
  refine (program_equal (F := degLE 2)
    (Prog.Quadratic.fits (by simp [Prog.Quadratic, Prog.deg]))
    (Prog.Quadratic.fits (by simp [Prog.Quadratic, Prog.deg]))
    (node_degLE le_rfl) (degLE_mono (by decide)) (degLE_mono (by decide)) (varsOK_of ?_)
    (by simp [Prog.Keys])).mpr ?_
  · rintro v ((rfl | rfl) | ((rfl | ⟨⟨⟩⟩ | (rfl | rfl)) | rfl)) <;> exact ⟨_, rfl⟩
  · simp only [Prog.meaning]
    rw [map_ofNat C 2]
    ring

end Verif
