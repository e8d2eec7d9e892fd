import Verif.Props.CheckedCon
import Verif.Props.ProgramTotal

/-!
# C79: what is read off checked programs and constraints

`Constant`, `LinearCoeff` and the linear representations of constraints look for the first term of a form.  They are right if
no such term is written twice.  `Prog.sharp` and `ConProg.sharp` say from the calls alone below which degree this is so.
-/

set_option linter.unusedSectionVars false

namespace Verif

open MvPolynomial

variable {R : Type}

/-- No two terms of degree less than `n` are equal up to the coefficient. -/
def Scalar.Once [GoNum R] (n : ℕ) : Scalar R → Prop
  | .poly p => p.monos.Pairwise fun a b => a.degs = b.degs → n ≤ a.degs.sum fun _ e => e
  | _ => True

/-- Every call but `DerivativeWrt` merges the terms of degree at most two; a derivative is not simplified, so that terms of
one degree more are needed once in the operand. -/
def Prog.sharp : Prog R → ℕ
  | .deriv a _ => a.sharp - 1
  | .subst _ _ s => min 3 s.sharp
  | .substMap _ n _ val => (List.finRange n).foldr (fun j k => min (val j).sharp k) 3
  | _ => 3

/-- The same for the sides of a constraint. -/
def ConProg.sharp : ConProg R → ℕ
  | .compare a b _ => min a.sharp b.sharp
  | .simplify c => c.sharp
  | .scale _ _ => 3
  | .subst _ _ s => min 3 s.sharp
  | .substMap _ n _ val => (List.finRange n).foldr (fun j k => min (val j).sharp k) 3

/-- The sense of the comparison. -/
def ConProg.sense : ConProg R → Sense
  | .compare _ _ s => s
  | .simplify c | .scale c _ | .subst c _ _ | .substMap c _ _ _ => c.sense

/-- All terms have degree at most one. -/
def Shape.linear (a : Shape) : Bool := a.ws.all fun w => decide (w.2.sum ≤ 1)

theorem foldr_min_le {α : Type} (f : α → ℕ) (l : List α) (k : ℕ) :
    l.foldr (fun j n => min (f j) n) k ≤ k ∧ ∀ a ∈ l, l.foldr (fun j n => min (f j) n) k ≤ f a := by
  induction l with
  | nil => simp
  | cons b l ih =>
    simp only [List.foldr_cons, List.mem_cons, forall_eq_or_imp]
    exact ⟨(min_le_right _ _).trans ih.1, min_le_left _ _, fun a ha => (min_le_right _ _).trans (ih.2 a ha)⟩

theorem Prog.sharp_le (p : Prog R) : p.sharp ≤ 3 := by
  induction p with
  | deriv a v ih => exact (Nat.sub_le _ _).trans ih
  | subst a v s => exact min_le_left _ _
  | substMap a n key val => exact (foldr_min_le _ _ _).1
  | _ => exact le_rfl

theorem ConProg.sharp_le (p : ConProg R) : p.sharp ≤ 3 := by
  induction p with
  | compare a b s => exact (min_le_left _ _).trans a.sharp_le
  | simplify p ih => exact ih
  | scale p f => exact le_rfl
  | subst p v s => exact min_le_left _ _
  | substMap p n key val => exact (foldr_min_le _ _ _).1

variable [Field R] [LinearOrder R]

theorem Scalar.Once.mono {m n : ℕ} (h : m ≤ n) {e : Scalar R} (he : e.Once n) : e.Once m := by
  cases e with
  | poly p => exact List.Pairwise.imp (fun h1 h2 => h.trans (h1 h2)) he
  | _ => trivial

theorem Scalar.Once.low {e : Scalar R} (he : e.Once 2) : e.LowDistinct := by
  cases e with
  | poly p => exact List.Pairwise.imp (fun h1 h2 => h1 h2) he
  | _ => trivial

/-- Simplified: terms of degree at most two are written once. -/
theorem once_of_fix {e : Scalar R} (he : e.Canon) (hf : ∀ p, e = .poly p → e.asSimplified = .ok e) : e.Once 3 := by
  cases e with
  | poly p =>
    have hfix := hf p rfl
    have hg := good_of_univ (s := .poly p) he
    obtain ⟨r, h1, q, hq, -, -, hr⟩ := Poly.asSimplified_ok hg.1 hg.2
    change p.asSimplified = _ at hfix
    rw [hfix, Except.ok.injEq] at h1
    subst h1
    have hnf := simplify_nf hg.1 hg.2 hq
    have hnc : ∀ nc : List (Mono R), (∀ m ∈ nc, m.Canon) → NoMatch nc →
        nc.Pairwise fun a b => a.degs = b.degs → 3 ≤ a.degs.sum fun _ e => e := by
      intro nc hc hn
      refine (List.pairwise_map.mp hn).imp_of_mem fun {a b} ha hb hab hd => ?_
      by_contra hlt
      exact hab (shapeMatch_of_degs (hc a ha) (hc b hb) (degLE_two_flat (Nat.le_of_lt_succ (not_le.mp hlt))) hd)
    have key : q.monos.Pairwise fun a b => a.degs = b.degs → 3 ≤ a.degs.sum fun _ e => e := by
      have hcanon : ∀ m ∈ q.monos, m.Canon := fun m hm => (hnf.good m hm).canon
      rcases hnf.form with ⟨c, e⟩ | ⟨nc, -, hv, hn, e | ⟨c, -, e⟩⟩
      · rw [e]; simp
      · rw [e] at hcanon ⊢
        exact hnc nc hcanon hn
      · rw [e] at hcanon ⊢
        rw [List.pairwise_cons]
        refine ⟨fun b hb hd => ?_, hnc nc (fun m hm => hcanon m (by simp [hm])) hn⟩
        have : b.degs = 0 := hd.symm
        exact absurd ((hcanon b (by simp [hb])).degs_eq_zero.mp this) (hv b hb).1
    cases hr with
    | poly _ => exact key
  | _ => trivial

/-- The derivative of a polynomial. -/
theorem derivFold_once {v : Var R} (hv : v.OK) {n : ℕ} (l : List (Mono R)) (hl : ∀ m ∈ l, m.Canon)
    (acc : List (Mono R)) (hn : l.Pairwise fun a b => a.degs = b.degs → n ≤ a.degs.sum fun _ e => e) :
    ∃ out, l.foldlM (derivStep v) acc = .ok (acc ++ out) ∧
      (∀ d ∈ out, ∃ m ∈ l, d.degs + Finsupp.single v.id 1 = m.degs) ∧
      out.Pairwise fun a b => a.degs = b.degs → n - 1 ≤ a.degs.sum fun _ e => e := by
  induction l generalizing acc with
  | nil => exact ⟨[], by simp [Go.pure_eq], by simp, by simp⟩
  | cons m l ih =>
    rw [List.pairwise_cons] at hn
    obtain ⟨o, h1, h2⟩ := derivStep_degs (hl m (by simp)) hv acc
    obtain ⟨out, h3, h4, h5⟩ := ih (fun m hm => hl m (by simp [hm])) (acc ++ o) hn.2
    refine ⟨o ++ out, ?_, ?_, ?_⟩
    · rw [List.foldlM_cons, h1, Go.ok_bind, h3, List.append_assoc]
    · intro d hd
      rcases List.mem_append.mp hd with hd | hd
      · rcases h2 with rfl | ⟨d', rfl, h2⟩
        · simp at hd
        · rw [List.mem_singleton] at hd
          exact ⟨m, by simp, hd ▸ h2⟩
      · obtain ⟨m', h6, h7⟩ := h4 d hd
        exact ⟨m', by simp [h6], h7⟩
    · rcases h2 with rfl | ⟨d', rfl, h2⟩
      · exact h5
      · rw [List.singleton_append, List.pairwise_cons]
        refine ⟨fun d hd hdd => ?_, h5⟩
        obtain ⟨m', h8, h9⟩ := h4 d hd
        have := hn.1 m' h8 (by rw [← h2, ← h9, hdd])
        rw [← h2, degree_add] at this
        have h1' : ((Finsupp.single v.id 1 : ℕ →₀ ℕ).sum fun _ e => e) = 1 := by simp
        omega

theorem derivative_once {e r : Scalar R} (he : e.Canon) {v : Var R} (hv : v.OK) {n : ℕ} (hn : e.Once n)
    (h : e.derivative v = .ok r) : r.Once (n - 1) := by
  cases e with
  | k c =>
    simp only [Scalar.derivative, Go.pure_eq, Except.ok.injEq] at h
    exact h ▸ trivial
  | var w =>
    simp only [Scalar.derivative] at h
    obtain ⟨-, -, h⟩ := Go.bind_eq_ok.mp h
    obtain ⟨-, -, h⟩ := Go.bind_eq_ok.mp h
    split at h
    all_goals
      simp only [Go.pure_eq, Except.ok.injEq] at h
      exact h ▸ trivial
  | mono m =>
    have hm : m.Canon := he
    obtain ⟨r', h1, h2⟩ := Mono.derivative_ok hm hv
    change m.derivative v = .ok r at h
    rw [h, Except.ok.injEq] at h1
    subst h1
    cases h2 <;> trivial
  | poly p =>
    have hp : p.Canon := he
    change p.derivative v = .ok r at h
    unfold Poly.derivative at h
    obtain ⟨-, -, h⟩ := Go.bind_eq_ok.mp h
    obtain ⟨-, -, h⟩ := Go.bind_eq_ok.mp h
    obtain ⟨out, h1, -, h3⟩ := derivFold_once hv p.monos hp.all [] hn
    rw [h1, Go.ok_bind, List.nil_append] at h
    split at h
    · simp only [Go.pure_eq, Except.ok.injEq] at h
      exact h ▸ trivial
    · simp only [Go.pure_eq, Except.ok.injEq] at h
      subst h
      exact h3

/-- `Constant` is right if no constant is written twice. -/
theorem constant_once {e : Scalar R} (he : e.Canon) (h : e.Once 1) : e.constant = .ok (coeff 0 e.den) := by
  cases e with
  | poly p =>
    have hp : p.Canon := he
    show p.constant = _
    unfold Poly.constant
    rw [show p.check = .ok () from Good.check (s := .poly p) (good_of_univ (s := .poly p) hp), Go.ok_bind, Scalar.den_poly,
      coeff_lden_find (q := fun m => m.isConstant) (fun m hm => by
        rw [(hp.all m hm).degs_eq_zero]; simp [Mono.isConstant]) ?_]
    · cases p.monos.find? (fun m => m.isConstant) <;> rfl
    · refine List.Pairwise.imp ?_ h
      rintro a b h ⟨ha, hb⟩
      have := h (ha.trans hb.symm)
      rw [ha] at this
      simp at this
  | k c => exact constant_partial he trivial
  | var v => exact constant_partial he trivial
  | mono m => exact constant_partial he trivial

/-- `Multiply` with a number. -/
theorem mulF64_noConst {a r : Scalar R} (ha : a.Canon) (na : a.NoConst) {c : R} (h : a.mulF64 c = .ok r) :
    r.NoConst ∧ ∀ p, r = .poly p → r.asSimplified = .ok r := by
  cases a with
  | k d => exact mul_noConst (a := .k d) (b := .k c) trivial trivial (fun _ h => (by cases h)) (fun _ h => (by cases h)) h
  | mono m => exact mul_noConst (a := .mono m) (b := .k c) ha trivial na (fun _ h => (by cases h)) h
  | var v =>
    obtain ⟨x, h1, h2⟩ := Go.bind_eq_ok.mp h
    have := simp_noConst (Scalar.mul_canon (a := .var v) (b := .k c) ha trivial x h1) h2
    exact ⟨this.1, fun _ _ => this.2⟩
  | poly p =>
    obtain ⟨x, h1, h2⟩ := Go.bind_eq_ok.mp h
    have := simp_noConst (Scalar.mul_canon (a := .poly p) (b := .k c) ha trivial x h1) h2
    exact ⟨this.1, fun _ _ => this.2⟩

/-! ## Programs -/

/-- C79: the result of any program, checked or not, writes terms of low degree once and is not a constant written as a
monomial. -/
theorem program_once {p : Prog R} (hv : ∀ v, p.Names v → v.OK) :
    ∃ e, p.run = .ok e ∧ e.Canon ∧ e.NoConst ∧ e.Once p.sharp := by
  suffices h : ∀ e, p.run = .ok e → e.NoConst ∧ e.Once p.sharp by
    obtain ⟨e, h1, h2, -⟩ := Prog.run_total hv
    exact ⟨e, h1, h2, h e h1⟩
  induction p with
  | k c =>
    intro e h
    simp only [Prog.run, Except.ok.injEq] at h
    exact h ▸ ⟨fun _ h => (by cases h), trivial⟩
  | var v =>
    intro e h
    simp only [Prog.run, Except.ok.injEq] at h
    exact h ▸ ⟨fun _ h => (by cases h), trivial⟩
  | plus a b iha ihb =>
    intro e h
    obtain ⟨x, hx, cx, -⟩ := Prog.run_total fun v h => hv v (.inl h)
    obtain ⟨y, hy, cy, -⟩ := Prog.run_total fun v h => hv v (.inr h)
    simp only [Prog.run, hx, hy, Go.ok_bind] at h
    obtain ⟨h1, h2⟩ := plus_noConst cx cy h
    exact ⟨h1, once_of_fix (Scalar.plus_canon cx cy e h) fun _ _ => h2⟩
  | minus a b iha ihb =>
    intro e h
    obtain ⟨x, hx, cx, -⟩ := Prog.run_total fun v h => hv v (.inl h)
    obtain ⟨y, hy, cy, -⟩ := Prog.run_total fun v h => hv v (.inr h)
    simp only [Prog.run, hx, hy, Go.ok_bind] at h
    obtain ⟨h1, h2⟩ := minus_noConst cx cy h
    obtain ⟨r, r1, r2, -⟩ := minus_total cx cy
    rw [h, Except.ok.injEq] at r1
    exact ⟨h1, once_of_fix (r1 ▸ r2) fun _ _ => h2⟩
  | mul a b iha ihb =>
    intro e h
    obtain ⟨x, hx, cx, -⟩ := Prog.run_total fun v h => hv v (.inl h)
    obtain ⟨y, hy, cy, -⟩ := Prog.run_total fun v h => hv v (.inr h)
    have nx := (iha (fun v h => hv v (.inl h)) x hx).1
    have ny := (ihb (fun v h => hv v (.inr h)) y hy).1
    simp only [Prog.run, hx, hy, Go.ok_bind] at h
    obtain ⟨h1, h2⟩ := mul_noConst cx cy nx ny h
    exact ⟨h1, once_of_fix (Scalar.mul_canon cx cy e h) h2⟩
  | pow a n iha =>
    intro e h
    obtain ⟨x, hx, cx, -⟩ := Prog.run_total (p := a) hv
    have nx := (iha hv x hx).1
    simp only [Prog.run, hx, Go.ok_bind] at h
    obtain ⟨h1, h2⟩ := power_noConst cx nx h
    obtain ⟨r, r1, r2, -⟩ := power_total cx (Int.natCast_nonneg n)
    rw [h, Except.ok.injEq] at r1
    exact ⟨h1, once_of_fix (r1 ▸ r2) h2⟩
  | simp a iha =>
    intro e h
    obtain ⟨x, hx, cx, -⟩ := Prog.run_total (p := a) hv
    simp only [Prog.run, hx, Go.ok_bind] at h
    obtain ⟨h1, h2⟩ := simp_noConst cx h
    obtain ⟨r, r1, r2, -⟩ := asSimplified_total cx
    rw [h, Except.ok.injEq] at r1
    exact ⟨h1, once_of_fix (r1 ▸ r2) fun _ _ => h2⟩
  | deriv a v iha =>
    intro e h
    obtain ⟨x, hx, cx, -⟩ := Prog.run_total fun v h => hv v (.inl h)
    have ox := (iha (fun v h => hv v (.inl h)) x hx).2
    have ov : v.OK := hv v (.inr rfl)
    simp only [Prog.run, hx, Go.ok_bind] at h
    exact ⟨(derivative_neat (E := Set.univ) cx (Scalar.termsIn_univ x) ov (fun _ _ => trivial) h).2.1,
      derivative_once cx ov ox h⟩
  | subst a v s iha ihs =>
    intro e h
    obtain ⟨x, hx, cx, -⟩ := Prog.run_total fun v h => hv v (.inl h)
    obtain ⟨y, hy, cy, -⟩ := Prog.run_total fun v h => hv v (.inr (.inr h))
    have nx := (iha (fun v h => hv v (.inl h)) x hx).1
    obtain ⟨ny, oy⟩ := ihs (fun v h => hv v (.inr (.inr h))) y hy
    simp only [Prog.run, hx, hy, Go.ok_bind] at h
    obtain ⟨r, r1, r2, -⟩ := substitute_total cx (hv v (.inr (.inl rfl))) cy
    rw [h, Except.ok.injEq] at r1
    obtain ⟨h1, h2 | h2⟩ := substitute_noConst cx nx cy ny h
    · exact ⟨h1, (once_of_fix (r1 ▸ r2) h2).mono (min_le_left _ _)⟩
    · exact ⟨h1, h2 ▸ oy.mono (min_le_right _ _)⟩
  | substMap a n key val iha ihs =>
    intro e h
    obtain ⟨x, hx, cx, -⟩ := Prog.run_total fun v h => hv v (.inl h)
    have hy' := fun j => Prog.run_total (p := val j) fun v h => hv v (.inr (.inr ⟨j, h⟩))
    choose y hy cy _ using hy'
    have ny := fun j => ihs j (fun v h => hv v (.inr (.inr ⟨j, h⟩))) (y j) (hy j)
    have hok : ∀ kv ∈ (List.finRange n).map (fun j => (key j, y j)), kv.1.OK ∧ kv.2.Canon := by
      simp only [List.mem_map, List.mem_finRange, true_and]
      rintro kv ⟨j, rfl⟩
      exact ⟨hv _ (.inr (.inl ⟨j, rfl⟩)), cy j⟩
    have hnc : ∀ kv ∈ (List.finRange n).map (fun j => (key j, y j)), kv.2.Canon ∧ kv.2.NoConst := by
      simp only [List.mem_map, List.mem_finRange, true_and]
      rintro kv ⟨j, rfl⟩
      exact ⟨cy j, (ny j).1⟩
    simp only [Prog.run, hx, Go.ok_bind] at h
    rw [mapM_pairs _ key (g := y) (fun j _ => hy j), Go.ok_bind] at h
    obtain ⟨r, r1, r2⟩ := substMap_total cx hok
    rw [h, Except.ok.injEq] at r1
    obtain ⟨h1, h2 | ⟨kv, hkv, h2⟩⟩ := substMap_noConst cx hnc h
    · exact ⟨h1, (once_of_fix (r1 ▸ r2) h2).mono (foldr_min_le _ _ _).1⟩
    · refine ⟨h1, ?_⟩
      obtain ⟨j, -, rfl⟩ := List.mem_map.mp hkv
      rw [h2]
      exact (ny j).2.mono ((foldr_min_le (fun j => (val j).sharp) _ _).2 j (List.mem_finRange j))

/-- C79: `Constant` of a checked program is the constant term of the polynomial that is meant. -/
theorem program_checked_constant {p : Prog R} (h : p.checked = true) (hv : p.VarsOK) (hk : p.Keys) (hs : 1 ≤ p.sharp) :
    ∃ e, p.run = .ok e ∧ e.constant = .ok (coeff 0 p.meaning) := by
  obtain ⟨e, h1, h2, h3, -⟩ := program_checked h hv hk
  obtain ⟨e', g1, -, -, g2⟩ := program_once hv.ok
  rw [h1, Except.ok.injEq] at g1
  subst g1
  exact ⟨e, h1, h3 ▸ constant_once h2 (g2.mono hs)⟩

/-- C79: `LinearCoeff` of a checked program, for variables that cover those of the program, gives the coefficients of the
polynomial that is meant. -/
theorem program_checked_linearCoeff {p : Prog R} (h : p.checked = true) (hv : p.VarsOK) (hk : p.Keys) (hs : 2 ≤ p.sharp)
    {ws : List (Var R)} (hne : ws ≠ []) (hok : ∀ w ∈ ws, w.OK) (hnd : (ws.map (·.id)).Nodup)
    (hcov : ∀ v, p.Names v → v.id ∈ ws.map (·.id)) :
    ∃ e, p.run = .ok e ∧ e.linearCoeff [ws] = .ok (ws.map fun w => coeff (Finsupp.single w.id 1) p.meaning) := by
  obtain ⟨e, h1, h2, h3, -, h5⟩ := program_checked h hv hk
  obtain ⟨e', g1, -, g3, g2⟩ := program_once hv.ok
  rw [h1, Except.ok.injEq] at g1
  subst g1
  refine ⟨e, h1, ?_⟩
  rw [← h3]
  exact linearCoeff_partial h2 (g2.mono hs).low g3 hne hok hnd fun v hv' => hcov v (h5 v hv')

/-! ## Constraints -/

theorem Shape.linear_terms {a : Shape} (h : a.linear = true) {f : MvPolynomial ℕ R} {e : Scalar R} (he : HasShape a f e) :
    e.TermsIn (degLE 1) := by
  have key : ∀ m ∈ e.terms, m.vars = [] ∨ m.degs ∈ degLE 1 := by
    intro m hm
    by_cases hv : m.vars = []
    · exact .inl hv
    · right
      have hs := of_decide_eq_true (List.all_eq_true.mp h _ (he.den.written m hm hv))
      have hc := Scalar.terms_canon he.den.canon m hm
      have := Mono.exps_sum hc
      rw [mem_degLE]
      change m.exps.sum ≤ 1 at hs
      omega
  cases e with
  | k c => trivial
  | var v => show _ ≤ 1; simp
  | mono m => exact key m (List.mem_singleton.mpr rfl)
  | poly p => exact key

/-- What holds of the constraints of all programs, checked or not. -/
structure OnceCon (p : ConProg R) (c : SCon R) : Prop where
  clhs : c.lhs.Canon
  crhs : c.rhs.Canon
  nlhs : c.lhs.NoConst
  nrhs : c.rhs.NoConst
  lhs : c.lhs.Once p.sharp
  rhs : c.rhs.Once p.sharp
  eq : p.sense = .eq → c.sense = .eq
  ineq : p.sense = .le ∨ p.sense = .ge → c.sense = .le ∨ c.sense = .ge

/-- C79: the constraint that any sequence of calls returns writes terms of low degree once on each side. -/
theorem conProgram_once {p : ConProg R} (hv : ∀ v, p.Names v → v.OK) {c : SCon R} (h : p.run = .ok c) : OnceCon p c := by
  induction p generalizing c with
  | compare a b s =>
    obtain ⟨x, x1, x2, x3, x4⟩ := program_once fun v h => hv v (.inl h)
    obtain ⟨y, y1, y2, y3, y4⟩ := program_once fun v h => hv v (.inr h)
    simp only [ConProg.run, x1, y1, Go.ok_bind,
      comparison_scalar (good_of_univ x2).check (good_of_univ y2).check] at h
    simp only [Go.pure_eq, Except.ok.injEq] at h
    subst h
    exact ⟨x2, y2, x3, y3, x4.mono (min_le_left _ _), y4.mono (min_le_right _ _), id, id⟩
  | simplify p ih =>
    obtain ⟨d, h1, h2⟩ := Go.bind_eq_ok.mp h
    have hd := ih hv h1
    have main : (do
        let e ← d.lhs.minus d.rhs
        let l ← e.plusF64 (← d.rhs.constant)
        return (⟨l, .k (← d.rhs.constant), d.sense⟩ : SCon R)) = .ok c → OnceCon (.simplify p) c := by
      intro h2
      obtain ⟨e, e1, h2⟩ := Go.bind_eq_ok.mp h2
      obtain ⟨k, k1, h2⟩ := Go.bind_eq_ok.mp h2
      obtain ⟨l, l1, h2⟩ := Go.bind_eq_ok.mp h2
      rw [k1, Go.ok_bind, Go.pure_eq, Except.ok.injEq] at h2
      subst h2
      obtain ⟨e', e2, ce, -⟩ := minus_total hd.clhs hd.crhs
      rw [e1, Except.ok.injEq] at e2
      subst e2
      obtain ⟨l', l2, gl⟩ := Scalar.plusF64_good (good_of_univ ce) k
      rw [l1, Except.ok.injEq] at l2
      subst l2
      have cl := (good_iff.mp gl).1
      have hl : l.NoConst ∧ l.asSimplified = .ok l := by
        cases e with
        | k d => exact plus_noConst (a := .k d) (b := .k k) trivial trivial l1
        | var v | mono m | poly p =>
          obtain ⟨z, z1, z2⟩ := Go.bind_eq_ok.mp l1
          exact simp_noConst (Scalar.plus_canon ce (b := .k k) trivial z z1) z2
      exact ⟨cl, trivial, hl.1, fun _ h => (by cases h), (once_of_fix cl fun _ _ => hl.2).mono p.sharp_le, trivial, hd.eq,
        hd.ineq⟩
    change d.simplify = .ok c at h2
    unfold SCon.simplify at h2
    cases hr : d.rhs with
    | k r =>
      rw [hr] at h2
      simp only [Go.pure_eq, Except.ok.injEq] at h2
      exact h2 ▸ ⟨hd.clhs, hd.crhs, hd.nlhs, hd.nrhs, hd.lhs, hd.rhs, hd.eq, hd.ineq⟩
    | var v | mono m | poly q =>
      rw [hr] at h2 main
      exact main h2
  | scale p f ih =>
    obtain ⟨d, h1, h2⟩ := Go.bind_eq_ok.mp h
    have hd := ih hv h1
    change d.scaleBy f = .ok c at h2
    obtain ⟨_, -, h2⟩ := Go.bind_eq_ok.mp h2
    obtain ⟨l, l1, h2⟩ := Go.bind_eq_ok.mp h2
    obtain ⟨r, r1, h2⟩ := Go.bind_eq_ok.mp h2
    rw [Go.pure_eq, Except.ok.injEq] at h2
    subst h2
    have can : ∀ {x y : Scalar R}, x.Canon → x.mulF64 f = .ok y → y.Canon := by
      intro x y hx h
      obtain ⟨z, z1, z2⟩ := Scalar.mulF64_good (good_of_univ hx) f
      rw [h, Except.ok.injEq] at z1
      exact z1 ▸ (good_iff.mp z2).1
    obtain ⟨l2, l3⟩ := mulF64_noConst hd.clhs hd.nlhs l1
    obtain ⟨r2, r3⟩ := mulF64_noConst hd.crhs hd.nrhs r1
    refine ⟨can hd.clhs l1, can hd.crhs r1, l2, r2, once_of_fix (can hd.clhs l1) l3, once_of_fix (can hd.crhs r1) r3, ?_, ?_⟩
    · intro hs
      have := hd.eq hs
      show flipSense d.sense f = _
      unfold flipSense
      rw [this]
      simp
    · intro hs
      show flipSense d.sense f = _ ∨ flipSense d.sense f = _
      unfold flipSense
      rcases hd.ineq hs with hs | hs <;> rw [hs] <;> split <;> simp
  | subst p v s ih =>
    obtain ⟨d, h1, h2⟩ := Go.bind_eq_ok.mp h
    have hd := ih (fun v h => hv v (.inl h)) h1
    obtain ⟨y, y1, y2, y3, y4⟩ := program_once fun v h => hv v (.inr (.inr h))
    rw [y1, Go.ok_bind] at h2
    obtain ⟨_, -, h2⟩ := Go.bind_eq_ok.mp h2
    obtain ⟨l, l1, h2⟩ := Go.bind_eq_ok.mp h2
    obtain ⟨r, r1, h2⟩ := Go.bind_eq_ok.mp h2
    rw [Go.pure_eq, Except.ok.injEq] at h2
    subst h2
    have key : ∀ {x z : Scalar R}, x.Canon → x.NoConst → x.substitute v y = .ok z →
        z.Canon ∧ z.NoConst ∧ z.Once (min 3 s.sharp) := by
      intro x z cx nx h
      obtain ⟨r, r1, r2, -⟩ := substitute_total cx (hv v (.inr (.inl rfl))) y2
      rw [h, Except.ok.injEq] at r1
      obtain ⟨h1, h2 | h2⟩ := substitute_noConst cx nx y2 y3 h
      · exact ⟨r1 ▸ r2, h1, (once_of_fix (r1 ▸ r2) h2).mono (min_le_left _ _)⟩
      · exact ⟨r1 ▸ r2, h1, h2 ▸ y4.mono (min_le_right _ _)⟩
    obtain ⟨a1, a2, a3⟩ := key hd.clhs hd.nlhs l1
    obtain ⟨b1, b2, b3⟩ := key hd.crhs hd.nrhs r1
    exact ⟨a1, b1, a2, b2, a3, b3, hd.eq, hd.ineq⟩
  | substMap p n key val ih =>
    obtain ⟨d, h1, h2⟩ := Go.bind_eq_ok.mp h
    have hd := ih (fun v h => hv v (.inl h)) h1
    have hy := fun j => program_once (p := val j) fun v h => hv v (.inr (.inr ⟨j, h⟩))
    choose y y1 y2 y3 y4 using hy
    have hok : ∀ kv ∈ (List.finRange n).map (fun j => (key j, y j)), kv.1.OK ∧ kv.2.Canon := by
      simp only [List.mem_map, List.mem_finRange, true_and]
      rintro kv ⟨j, rfl⟩
      exact ⟨hv _ (.inr (.inl ⟨j, rfl⟩)), y2 j⟩
    have hnc : ∀ kv ∈ (List.finRange n).map (fun j => (key j, y j)), kv.2.Canon ∧ kv.2.NoConst := by
      simp only [List.mem_map, List.mem_finRange, true_and]
      rintro kv ⟨j, rfl⟩
      exact ⟨y2 j, y3 j⟩
    rw [mapM_pairs _ key (g := y) (fun j _ => y1 j), Go.ok_bind] at h2
    obtain ⟨_, -, h2⟩ := Go.bind_eq_ok.mp h2
    obtain ⟨l, l1, h2⟩ := Go.bind_eq_ok.mp h2
    obtain ⟨r, r1, h2⟩ := Go.bind_eq_ok.mp h2
    rw [Go.pure_eq, Except.ok.injEq] at h2
    subst h2
    have key : ∀ {x z : Scalar R}, x.Canon → x.substMap ((List.finRange n).map fun j => (key j, y j)) = .ok z →
        z.Canon ∧ z.NoConst ∧ z.Once ((List.finRange n).foldr (fun j k => min (val j).sharp k) 3) := by
      intro x z cx h
      obtain ⟨r, r1, r2⟩ := substMap_total cx hok
      rw [h, Except.ok.injEq] at r1
      obtain ⟨h1, h2 | ⟨kv, hkv, h2⟩⟩ := substMap_noConst cx hnc h
      · exact ⟨r1 ▸ r2, h1, (once_of_fix (r1 ▸ r2) h2).mono (foldr_min_le _ _ _).1⟩
      · refine ⟨r1 ▸ r2, h1, ?_⟩
        obtain ⟨j, -, rfl⟩ := List.mem_map.mp hkv
        rw [h2]
        exact (y4 j).mono ((foldr_min_le (fun j => (val j).sharp) _ _).2 j (List.mem_finRange j))
    obtain ⟨a1, a2, a3⟩ := key hd.clhs l1
    obtain ⟨b1, b2, b3⟩ := key hd.crhs r1
    exact ⟨a1, b1, a2, b2, a3, b3, hd.eq, hd.ineq⟩

section Order
variable [IsStrictOrderedRing R]

private theorem sum_neg (A : List R) (ws : List (Var R)) (ρ : ℕ → R) :
    (((A.map (fun x => (-1 : R) * x)).zip ws).map (fun aw => aw.1 * ρ aw.2.id)).sum =
      - ((A.zip ws).map (fun aw => aw.1 * ρ aw.2.id)).sum := by
  induction A generalizing ws with
  | nil => simp
  | cons a A ih =>
    cases ws with
    | nil => simp
    | cons w ws => simp only [List.map_cons, List.zip_cons_cons, List.sum_cons, ih]; ring

/-- C36 with the condition that `Constant` of both sides is right. -/
theorem linearIneq_once {c : SCon R} (hc : c.Canon) (hs : c.sense = .le ∨ c.sense = .ge) (h1 : c.lhs.Once 1)
    (h2 : c.rhs.Once 1) (hl : c.TermsIn (degLE 1)) {ws : List (Var R)} (hne : ws ≠ []) (hok : ∀ w ∈ ws, w.OK)
    (hnd : (ws.map (·.id)).Nodup)
    (hcov : ∀ d, c.lhs.minus c.rhs = .ok d → ∀ v, d.Mentions v → v.id ∈ ws.map (·.id)) :
    ∃ A b, c.linearIneq [ws] = .ok (A, b) ∧ A.length = ws.length ∧
      ∀ ρ, c.Sat ρ ↔ ((A.zip ws).map (fun aw => aw.1 * ρ aw.2.id)).sum ≤ b := by
  obtain ⟨d, A, e1, e2, e3, e4⟩ := linear_core hc hl hne hok hnd hcov
  unfold SCon.linearIneq
  rw [hc.check, Go.ok_bind, requireLinear_ok hc hl, Go.ok_bind, e1, Go.ok_bind, e2, Go.ok_bind, constant_once hc.rhs h2,
    Go.ok_bind, constant_once hc.lhs h1, Go.ok_bind]
  refine ⟨_, _, rfl, ?_, ?_⟩
  · split <;> simpa using e3
  · intro ρ
    have h := e4 ρ
    rcases hs with hs | hs
    · rw [if_neg (by rw [hs]; decide), if_neg (by rw [hs]; decide)]
      unfold SCon.Sat
      rw [hs]
      show _ ≤ _ ↔ _ ≤ coeff 0 c.rhs.den - coeff 0 c.lhs.den
      constructor <;> intro h' <;> linarith
    · rw [if_pos hs, if_pos hs, negOne_eq]
      have e := sum_neg A ws ρ
      unfold SCon.Sat
      rw [hs]
      show _ ≤ _ ↔ (((A.map (fun x => (-1 : R) * x)).zip ws).map _).sum ≤ -(coeff 0 c.rhs.den - coeff 0 c.lhs.den)
      rw [e]
      constructor <;> intro h' <;> linarith

/-- C37 with the condition that `Constant` of both sides is right. -/
theorem linearEq_once {c : SCon R} (hc : c.Canon) (hs : c.sense = .eq) (h1 : c.lhs.Once 1)
    (h2 : c.rhs.Once 1) (hl : c.TermsIn (degLE 1)) {ws : List (Var R)} (hne : ws ≠ []) (hok : ∀ w ∈ ws, w.OK)
    (hnd : (ws.map (·.id)).Nodup)
    (hcov : ∀ d, c.lhs.minus c.rhs = .ok d → ∀ v, d.Mentions v → v.id ∈ ws.map (·.id)) :
    ∃ A b, c.linearEq [ws] = .ok (A, b) ∧ A.length = ws.length ∧
      ∀ ρ, c.Sat ρ ↔ ((A.zip ws).map (fun aw => aw.1 * ρ aw.2.id)).sum = b := by
  obtain ⟨d, A, e1, e2, e3, e4⟩ := linear_core hc hl hne hok hnd hcov
  unfold SCon.linearEq
  rw [hc.check, Go.ok_bind, requireLinear_ok hc hl, Go.ok_bind, if_neg (by simp [hs])]
  refine ⟨A, coeff 0 c.rhs.den - coeff 0 c.lhs.den, ?_, e3, ?_⟩
  · simp only [Go.pure_eq]
    rw [e1, Go.ok_bind, e2, Go.ok_bind, constant_once hc.rhs h2, Go.ok_bind, constant_once hc.lhs h1]
    rfl
  · intro ρ
    have h := e4 ρ
    unfold SCon.Sat
    rw [hs]
    show _ = _ ↔ _
    constructor <;> intro h' <;> linarith

/-- C79: the linear inequality representation of a checked `<=` or `>=` constraint.  If a side has a term of degree two or
more it is an error; otherwise it is the half space the calls ask for. -/
theorem conProgram_inequality {p : ConProg R} (h : p.checked = true) (hv : p.VarsOK) (hk : p.Proper) (hp : 1 ≤ p.sharp)
    (hs : p.sense = .le ∨ p.sense = .ge) {ws : List (Var R)} (hne : ws ≠ []) (hok : ∀ w ∈ ws, w.OK)
    (hnd : (ws.map (·.id)).Nodup) (hcov : ∀ v, p.Names v → v.id ∈ ws.map (·.id)) :
    ∃ c, p.run = .ok c ∧ (¬ c.TermsIn (degLE 1) → c.linearIneq [ws] = .error .notLinear) ∧
      (c.TermsIn (degLE 1) → ∃ A b, c.linearIneq [ws] = .ok (A, b) ∧ A.length = ws.length ∧
        ∀ ρ, p.Holds ρ ↔ ((A.zip ws).map (fun aw => aw.1 * ρ aw.2.id)).sum ≤ b) := by
  obtain ⟨c, h1, h2, h3, h4⟩ := conProgram_checked h hv hk
  have ho := conProgram_once hv.ok h1
  refine ⟨c, h1, fun hl => (linear_rejects_nonlinear h2 hl _).1, fun hl => ?_⟩
  obtain ⟨A, b, a1, a2, a3⟩ := linearIneq_once h2 (ho.ineq hs) (ho.lhs.mono hp) (ho.rhs.mono hp) hl hne hok hnd
    (SCon.CoveredBy.diff (fun v hv' => hcov v (h3 v hv')) h2)
  exact ⟨A, b, a1, a2, fun ρ => (h4 ρ).symm.trans (a3 ρ)⟩

/-- C79: the linear equality representation of a checked `==` constraint. -/
theorem conProgram_equality {p : ConProg R} (h : p.checked = true) (hv : p.VarsOK) (hk : p.Proper) (hp : 1 ≤ p.sharp)
    (hs : p.sense = .eq) {ws : List (Var R)} (hne : ws ≠ []) (hok : ∀ w ∈ ws, w.OK)
    (hnd : (ws.map (·.id)).Nodup) (hcov : ∀ v, p.Names v → v.id ∈ ws.map (·.id)) :
    ∃ c, p.run = .ok c ∧ (¬ c.TermsIn (degLE 1) → c.linearEq [ws] = .error .notLinear) ∧
      (c.TermsIn (degLE 1) → ∃ A b, c.linearEq [ws] = .ok (A, b) ∧ A.length = ws.length ∧
        ∀ ρ, p.Holds ρ ↔ ((A.zip ws).map (fun aw => aw.1 * ρ aw.2.id)).sum = b) := by
  obtain ⟨c, h1, h2, h3, h4⟩ := conProgram_checked h hv hk
  have ho := conProgram_once hv.ok h1
  refine ⟨c, h1, fun hl => (linear_rejects_nonlinear h2 hl _).2, fun hl => ?_⟩
  obtain ⟨A, b, a1, a2, a3⟩ := linearEq_once h2 (ho.eq hs) (ho.lhs.mono hp) (ho.rhs.mono hp) hl hne hok hnd
    (SCon.CoveredBy.diff (fun v hv' => hcov v (h3 v hv')) h2)
  exact ⟨A, b, a1, a2, fun ρ => (h4 ρ).symm.trans (a3 ρ)⟩

/-- C79: the calls alone say that the representation is returned. -/
theorem conProgram_linear {p : ConProg R} (h : p.checked = true) (hv : p.VarsOK) (hk : p.Proper)
    (hl : p.shape.1.linear = true) (hr : p.shape.2.linear = true) : ∃ c, p.run = .ok c ∧ c.TermsIn (degLE 1) := by
  obtain ⟨c, hc⟩ := ConProg.run_checked h hv.ok hv.same (fun _ h => h) hk
  exact ⟨c, hc.run, Shape.linear_terms hl hc.lhs, Shape.linear_terms hr hc.rhs⟩

/-- C79: if `IsNonnegativityConstraint` says yes of a checked constraint that has no constant on the left side, the calls ask
for `x >= 0`. -/
theorem conProgram_nonneg {p : ConProg R} (h : p.checked = true) (hok : (p.shape.1.add p.shape.2).ok = true) (hv : p.VarsOK)
    (hk : p.Proper) (hp : 2 ≤ p.sharp) :
    ∃ c, p.run = .ok c ∧ (coeff 0 c.lhs.den = 0 → c.isNonneg = .ok true →
      ∃ v, p.Names v ∧ ∀ ρ, p.Holds ρ ↔ 0 ≤ ρ v.id) := by
  obtain ⟨c, hc⟩ := ConProg.run_checked h hv.ok hv.same (fun _ h => h) hk
  have ho := conProgram_once hv.ok hc.run
  refine ⟨c, hc.run, fun h0 hn => ?_⟩
  have s1 : p.shape.1.set ⊆ (p.shape.1.add p.shape.2).set := fun w hw => List.mem_dedup.mpr (List.mem_append_left _ hw)
  have s2 : p.shape.2.set ⊆ (p.shape.1.add p.shape.2).set := fun w hw => List.mem_dedup.mpr (List.mem_append_right _ hw)
  obtain ⟨v, v1, v2⟩ := isNonneg_written (Shape.ok_consistent hok) hc.canon (SemW.weaken hc.lhs.den s1).written
    (SemW.weaken hc.rhs.den s2).written ⟨(ho.lhs.mono hp).low, (ho.rhs.mono hp).low⟩ h0 hn
  exact ⟨v, hc.names v v1, fun ρ => (hc.holds ρ).symm.trans (v2 ρ)⟩

/-- C79: if `ImpliesThisIsAlsoSatisfied` says yes of two checked linear constraints that have no constant on the left side,
neither of them constant, then what the calls of the first ask for implies what the calls of the second ask for. -/
theorem conProgram_implies {p q : ConProg R} (hp : p.checked = true) (hq : q.checked = true) (vp : p.VarsOK) (vq : q.VarsOK)
    (kp : p.Proper) (kq : q.Proper) (sp : 2 ≤ p.sharp) (sq : 2 ≤ q.sharp) :
    ∃ c d, p.run = .ok c ∧ q.run = .ok d ∧ (c.TermsIn (degLE 1) → d.TermsIn (degLE 1) → coeff 0 c.lhs.den = 0 →
      coeff 0 d.lhs.den = 0 → c.Nonconst → d.Nonconst → c.implies (.s d) = .ok true → ∀ ρ, p.Holds ρ → q.Holds ρ) := by
  obtain ⟨c, c1, c2, -, c4⟩ := conProgram_checked hp vp kp
  obtain ⟨d, d1, d2, -, d4⟩ := conProgram_checked hq vq kq
  have oc := conProgram_once vp.ok c1
  have od := conProgram_once vq.ok d1
  refine ⟨c, d, c1, d1, fun lc ld zc zd nc nd hi ρ hρ => (d4 ρ).mp ?_⟩
  exact implies_sound_partial ⟨c2, ⟨(oc.lhs.mono sp).low, (oc.rhs.mono sp).low⟩, lc, zc⟩
    ⟨d2, ⟨(od.lhs.mono sq).low, (od.rhs.mono sq).low⟩, ld, zd⟩ nc nd hi ρ ((c4 ρ).mpr hρ)

end Order

/-! ## The bounds on derivatives cannot be dropped -/

/-- `x^2 y + y x x`, which the library keeps as two terms, differentiated by `x` twice: `2y + 2y`. -/
def wTwice : Prog ℚ :=
  .deriv (.deriv (.plus (.mul (.pow (.var wx) 2) (.var wy)) (.mul (.mul (.var wy) (.var wx)) (.var wx))) wx) wx

/-- The third derivative: `2 + 2`. -/
def wThrice : Prog ℚ := .deriv wTwice wy

private theorem wThrice_vars : wThrice.VarsOK := varsOK_of (by
  intro v hv
  have : v = wx ∨ v = wy := by
    simp only [wThrice, wTwice, Prog.Names] at hv
    tauto
  rcases this with h | h
  · exact ⟨0, h⟩
  · exact ⟨1, h⟩)

private theorem wThrice_run : wThrice.run = .ok (.poly ⟨[wm0 2, wm0 2]⟩) ∧ wThrice.meaning = C 4 := by
  obtain ⟨e, h1, -, h3, -⟩ := program_checked (p := wThrice) (by decide +kernel) wThrice_vars
    (by simp [wThrice, wTwice, Prog.Keys])
  have h2 : wThrice.run = .ok (.poly ⟨[wm0 2, wm0 2]⟩) := by decide +kernel
  refine ⟨h2, ?_⟩
  rw [h2, Except.ok.injEq] at h1
  subst h1
  rw [← h3, Scalar.den_poly, lden_cons, lden_cons, lden_nil]
  simp only [Mono.den, wm0_degs]
  show monomial 0 (2 : ℚ) + (monomial 0 (2 : ℚ) + 0) = monomial 0 4
  rw [add_zero, ← map_add]
  norm_num

/-- C79: after three derivatives in a row `Constant` can be wrong although the program passes the check: it returns 2 for
`2 + 2`. -/
theorem program_constant_false :
    ¬ ∀ p : Prog ℚ, p.checked = true → p.VarsOK → p.Keys → ∃ e, p.run = .ok e ∧ e.constant = .ok (coeff 0 p.meaning) := by
  intro h
  obtain ⟨e, h1, h2⟩ := h wThrice (by decide +kernel) wThrice_vars (by simp [wThrice, wTwice, Prog.Keys])
  rw [wThrice_run.1, Except.ok.injEq] at h1
  subst h1
  rw [wThrice_run.2, show (Scalar.poly ⟨[wm0 2, wm0 2]⟩ : Scalar ℚ).constant = .ok 2 by decide +kernel,
    Except.ok.injEq] at h2
  norm_num [coeff_C] at h2

/-- C79: so can the linear inequality representation: `x <= 2 + 2` is returned as `x <= 2`. -/
theorem conProgram_inequality_false :
    ¬ ∀ (p : ConProg ℚ) (ws : List (Var ℚ)), p.checked = true → p.VarsOK → p.Proper → p.sense = .le → ws ≠ [] →
      (∀ w ∈ ws, w.OK) → (ws.map (·.id)).Nodup → (∀ v, p.Names v → v.id ∈ ws.map (·.id)) →
      ∀ c A b, p.run = .ok c → c.linearIneq [ws] = .ok (A, b) →
        ∀ ρ, p.Holds ρ ↔ ((A.zip ws).map (fun aw => aw.1 * ρ aw.2.id)).sum ≤ b := by
  intro h
  have hn : ∀ v, (ConProg.compare (.var wx) wThrice .le).Names v → v = wx ∨ v = wy := by
    intro v hv
    simp only [ConProg.Names, wThrice, wTwice, Prog.Names] at hv
    tauto
  have := h (.compare (.var wx) wThrice .le) [wx, wy] (by decide +kernel) ⟨fun v hv => by
      rcases hn v hv with rfl | rfl <;> exact wv_ok _, fun v w hv hw => by
      rcases hn v hv with rfl | rfl <;> rcases hn w hw with rfl | rfl <;> decide +kernel⟩
    ⟨trivial, by simp [wThrice, wTwice, Prog.Keys], .inr (.inl rfl)⟩ rfl (by simp) (by simp [wv_ok]) (by decide +kernel)
    (fun v hv => by rcases hn v hv with rfl | rfl <;> decide +kernel)
    ⟨.var wx, .poly ⟨[wm0 2, wm0 2]⟩, .le⟩ [1, 0] 2 (by decide +kernel) (by decide +kernel) (fun _ => 3)
  simp only [ConProg.Holds, wThrice_run.2, Prog.meaning, Sense.Holds, eval_X, eval_C] at this
  norm_num at this

/-- C79: after two derivatives in a row `LinearCoeff` can be wrong: it returns 2 for the coefficient of `y` in `2y + 2y`. -/
theorem program_linearCoeff_false :
    ¬ ∀ (p : Prog ℚ) (ws : List (Var ℚ)), p.checked = true → p.VarsOK → p.Keys → ws ≠ [] → (∀ w ∈ ws, w.OK) →
      (ws.map (·.id)).Nodup → (∀ v, p.Names v → v.id ∈ ws.map (·.id)) →
      ∃ e, p.run = .ok e ∧ e.linearCoeff [ws] = .ok (ws.map fun w => coeff (Finsupp.single w.id 1) p.meaning) := by
  intro h
  have hn : ∀ v, wTwice.Names v → v = wx ∨ v = wy := by
    intro v hv
    simp only [wTwice, Prog.Names] at hv
    tauto
  have hv : wTwice.VarsOK := ⟨fun v hv => wThrice_vars.ok v (.inl hv), fun v w hv hw =>
    wThrice_vars.same v w (.inl hv) (.inl hw)⟩
  have hk : wTwice.Keys := by simp [wTwice, Prog.Keys]
  obtain ⟨e, h1, h2⟩ := h wTwice [wx, wy] (by decide +kernel) hv hk (by simp) (by simp [wv_ok]) (by decide +kernel)
    (fun v hv => by rcases hn v hv with rfl | rfl <;> decide +kernel)
  obtain ⟨e', g1, -, g3, -⟩ := program_checked (p := wTwice) (by decide +kernel) hv hk
  have h3 : wTwice.run = .ok (.poly ⟨[wm1 2 1 1, wm1 2 1 1]⟩) := by decide +kernel
  rw [h3, Except.ok.injEq] at h1 g1
  subst h1 g1
  rw [← g3, show (Scalar.poly ⟨[wm1 2 1 1, wm1 2 1 1]⟩ : Scalar ℚ).linearCoeff [[wx, wy]] = .ok [0, 2] by decide +kernel,
    Except.ok.injEq] at h2
  have h4 := congrArg (fun l => l[1]?) h2
  simp only [List.map_cons, List.map_nil, List.getElem?_cons_succ, List.getElem?_cons_zero, Option.some.injEq, Scalar.den_poly,
    lden_cons, lden_nil, add_zero, coeff_add, Mono.den, wm1_degs, coeff_monomial, wv] at h4
  norm_num [wm1] at h4

/-! ## Examples -/

/-- `x <= y^2'`, where the derivative is by `y`, minus one, scaled by `-2`, simplified. -/
private def wLin : ConProg ℚ :=
  .scale (.simplify (.compare (.var wx) (.minus (.deriv (.pow (.var wy) 2) wy) (.k 1)) .le)) (-2)

private theorem wLin_names : ∀ v, wLin.Names v → v = wx ∨ v = wy := by
  intro v hv
  simp only [wLin, ConProg.Names, Prog.Names] at hv
  tauto

private theorem wLin_vars : wLin.VarsOK := ⟨fun v hv => by rcases wLin_names v hv with rfl | rfl <;> exact wv_ok _,
  fun v w hv hw => by rcases wLin_names v hv with rfl | rfl <;> rcases wLin_names w hw with rfl | rfl <;> decide +kernel⟩

/-- The hypotheses of `conProgram_inequality` and `conProgram_linear` are met; what is returned describes `x <= 2y - 1`. -/
example : ∃ c A b, wLin.run = .ok c ∧ c.linearIneq [[wx, wy]] = .ok (A, b) ∧
    ∀ ρ : ℕ → ℚ, ρ 0 ≤ 2 * ρ 1 - 1 ↔ ((A.zip [wx, wy]).map (fun aw => aw.1 * ρ aw.2.id)).sum ≤ b := by
  have hk : wLin.Proper := by simp [wLin, ConProg.Proper, Prog.Keys, Sense.OK]
  obtain ⟨c, h1, -, h3⟩ := conProgram_inequality (p := wLin) (by decide +kernel) wLin_vars hk (by decide +kernel)
    (.inl rfl) (ws := [wx, wy]) (by simp) (by simp [wv_ok]) (by decide +kernel)
    (fun v hv => by rcases wLin_names v hv with rfl | rfl <;> decide +kernel)
  obtain ⟨c', g1, g2⟩ := conProgram_linear (p := wLin) (by decide +kernel) wLin_vars hk (by decide +kernel) (by decide +kernel)
  rw [h1, Except.ok.injEq] at g1
  obtain ⟨A, b, a1, -, a2⟩ := h3 (g1 ▸ g2)
  refine ⟨c, A, b, h1, a1, fun ρ => ?_⟩
  rw [← a2]
  simp [wLin, ConProg.Holds, Prog.meaning, Sense.Holds, wv, Derivation.leibniz_pow]

/-- An equality: `x + y == 3`. -/
example : ∃ c A b, (ConProg.compare (.plus (.var wx) (.var wy)) (.k 3) .eq).run = .ok c ∧
    c.linearEq [[wx, wy]] = .ok (A, b) ∧
    ∀ ρ : ℕ → ℚ, ρ 0 + ρ 1 = 3 ↔ ((A.zip [wx, wy]).map (fun aw => aw.1 * ρ aw.2.id)).sum = b := by
  have hn : ∀ v : Var ℚ, (ConProg.compare (.plus (.var wx) (.var wy)) (.k 3) .eq).Names v → v = wx ∨ v = wy := by
    intro v hv
    simp only [ConProg.Names, Prog.Names] at hv
    tauto
  have hv : (ConProg.compare (.plus (.var wx) (.var wy)) (.k (3 : ℚ)) .eq).VarsOK := ⟨fun v hv => by
    rcases hn v hv with rfl | rfl <;> exact wv_ok _, fun v w hv hw => by
    rcases hn v hv with rfl | rfl <;> rcases hn w hw with rfl | rfl <;> decide +kernel⟩
  have hk : (ConProg.compare (.plus (.var wx) (.var wy)) (.k (3 : ℚ)) .eq).Proper := by
    simp [ConProg.Proper, Prog.Keys, Sense.OK]
  obtain ⟨c, h1, -, h3⟩ := conProgram_equality (by decide +kernel) hv hk (by decide +kernel) rfl (ws := [wx, wy]) (by simp)
    (by simp [wv_ok]) (by decide +kernel) (fun v hv => by rcases hn v hv with rfl | rfl <;> decide +kernel)
  obtain ⟨c', g1, g2⟩ := conProgram_linear (by decide +kernel) hv hk (by decide +kernel) (by decide +kernel)
  rw [h1, Except.ok.injEq] at g1
  obtain ⟨A, b, a1, -, a2⟩ := h3 (g1 ▸ g2)
  refine ⟨c, A, b, h1, a1, fun ρ => ?_⟩
  rw [← a2]
  simp [ConProg.Holds, Prog.meaning, Sense.Holds, wv]

/-- `Constant` and `LinearCoeff` after a derivative of a cubic: `(x^2 y + 3 x + x)' = 2 x y + 4`. -/
example : ∃ e, (Prog.deriv (.plus (.mul (.pow (.var wx) 2) (.var wy)) (.mul (.k 4) (.var wx))) wx).run = .ok e ∧
    e.constant = .ok (4 : ℚ) := by
  have hv : (Prog.deriv (.plus (.mul (.pow (.var wx) 2) (.var wy)) (.mul (.k (4 : ℚ)) (.var wx))) wx).VarsOK := varsOK_of (by
    intro v hv
    have : v = wx ∨ v = wy := by
      simp only [Prog.Names] at hv
      tauto
    rcases this with h | h
    · exact ⟨0, h⟩
    · exact ⟨1, h⟩)
  obtain ⟨e, h1, h2⟩ := program_checked_constant (by decide +kernel) hv (by simp [Prog.Keys]) (by decide +kernel)
  refine ⟨e, h1, h2.trans ?_⟩
  rw [← constantCoeff_eq]
  simp [Prog.meaning, wv, Derivation.leibniz_pow, Derivation.leibniz]

/-- `x >= 0` passes the hypotheses of `conProgram_nonneg`, and `x <= 1` and `x <= 2` those of `conProgram_implies`. -/
example : (∃ c, (ConProg.compare (.var wx) (.k (0 : ℚ)) .ge).run = .ok c ∧ c.isNonneg = .ok true) ∧
    (ConProg.compare (.var wx) (.k (0 : ℚ)) .ge).checked = true ∧
    (((ConProg.compare (.var wx) (.k (0 : ℚ)) .ge).shape.1.add (ConProg.compare (.var wx) (.k (0 : ℚ)) .ge).shape.2).ok = true) ∧
    SCon.implies ⟨.var wx, .k (1 : ℚ), .le⟩ (.s ⟨.var wx, .k 2, .le⟩) = .ok true :=
  ⟨⟨⟨.var wx, .k 0, .ge⟩, by decide +kernel, by decide +kernel⟩, by decide +kernel, by decide +kernel, by decide +kernel⟩

end Verif
