import Verif.Lemmas.Value

/-!
# Multiply, Minus and Power
-/

set_option linter.unusedSectionVars false

namespace Verif

section Struct

variable {R : Type} [GoNum R]
variable {P P' : Var R → Prop} {D D' D1 D2 D3 : Set (ℕ →₀ ℕ)}

theorem GoodM.weaken {m : Mono R} (h : GoodM P D m) (hP : ∀ v, P v → P' v) (hD : D ⊆ D') :
    GoodM P' D' m :=
  ⟨h.canon, fun v hv => hP v (h.vars v hv), h.degs.imp id (fun h => hD h)⟩

theorem GoodL.weaken {l : List (Mono R)} (h : GoodL P D l) (hP : ∀ v, P v → P' v) (hD : D ⊆ D') :
    GoodL P' D' l := fun m hm => (h m hm).weaken hP hD

theorem Good.weaken {s : Scalar R} (h : Good P D s) (hP : ∀ v, P v → P' v) (hD : D ⊆ D') :
    Good P' D' s := by
  cases s with
  | k c => trivial
  | var v => exact ⟨h.1, hP v h.2.1, hD h.2.2⟩
  | mono m => exact GoodM.weaken h hP hD
  | poly p => exact ⟨h.1, h.2.weaken hP hD⟩

theorem ProdIn.symm (h : ProdIn D1 D2 D3) : ProdIn D2 D1 D3 :=
  ⟨h.right, h.left, fun d hd d' hd' => add_comm d' d ▸ h.add d' hd' d hd⟩

/-- A monomial whose exponent vector is a sum. -/
theorem goodM_of_degs (h : ProdIn D1 D2 D3) {m r p : Mono R} (hm : GoodM P D1 m)
    (hr : GoodM P D2 r) (hp : p.Canon) (hv : ∀ v ∈ p.vars, v ∈ m.vars ∨ v ∈ r.vars)
    (hd : p.degs = m.degs + r.degs) : GoodM P D3 p := by
  refine ⟨hp, fun v hv' => (hv v hv').elim (hm.vars v) (hr.vars v), ?_⟩
  rcases hm.degs with h1 | h1
  · rw [hm.canon.degs_eq_zero.mpr h1, zero_add] at hd
    rcases hr.degs with h2 | h2
    · left
      rw [hr.canon.degs_eq_zero.mpr h2] at hd
      exact hp.degs_eq_zero.mp hd
    · right; rw [hd]; exact h.right h2
  · rcases hr.degs with h2 | h2
    · rw [hr.canon.degs_eq_zero.mpr h2, add_zero] at hd
      right; rw [hd]; exact h.left h1
    · right; rw [hd]; exact h.add _ h1 _ h2

theorem Mono.mulK_good {m : Mono R} (hm : GoodM P D m) (c : R) : GoodM P D (m.mulK c) :=
  hm.congr rfl rfl

theorem Mono.mulVar_good (h : ProdIn D1 D2 D3) {m : Mono R} (hm : GoodM P D1 m) {v : Var R}
    (hv : Good P D2 (.var v)) : GoodM P D3 (m.mulVar v) := by
  obtain ⟨h1, h2, -, h4⟩ := Mono.mulVar_spec hm.canon hv.1
  refine goodM_of_degs h hm (goodM_var hv.1 hv.2.1 hv.2.2 (GoNum.one : R)) h1 ?_ ?_
  · intro w hw
    rcases h4 w hw with h | h
    · exact Or.inl h
    · right; simp [h]
  · rw [h2, Var.degs_one]; rfl

theorem Mono.mulMono_good (h : ProdIn D1 D2 D3) {m r : Mono R} (hm : GoodM P D1 m)
    (hr : GoodM P D2 r) : Go.Ok (m.mulMono r) (fun p => GoodM P D3 p ∧
      p.degs = m.degs + r.degs ∧ p.coeff = GoNum.mul m.coeff r.coeff) :=
  (Mono.mulMono_ok hm.canon hr.canon).mono
    (fun _ ⟨h1, h2, h3, h4, _⟩ => ⟨goodM_of_degs h hm hr h1 h4 h2, h2, h3⟩)

theorem Poly.mulK_good {p : Poly R} (hp : Good P D (.poly p)) (c : R) :
    Go.Ok (p.mulK c) (Good P D) := by
  unfold Poly.mulK
  rw [GoodL.check hp.1 hp.2, Go.ok_bind]
  refine Poly.asSimplified_good (by simpa using hp.1) ?_
  intro m hm
  obtain ⟨x, hx, rfl⟩ := List.mem_map.mp hm
  exact Mono.mulK_good (hp.2 x hx) c

theorem Poly.mulVar_good (h : ProdIn D1 D2 D3) {p : Poly R} (hp : Good P D1 (.poly p)) {v : Var R}
    (hv : Good P D2 (.var v)) : Go.Ok (p.mulVar v) (Good P D3) := by
  unfold Poly.mulVar
  rw [GoodL.check hp.1 hp.2, hv.1.check, Go.ok_bind, Go.ok_bind]
  refine Poly.asSimplified_good (by simpa using hp.1) ?_
  intro m hm
  obtain ⟨x, hx, rfl⟩ := List.mem_map.mp hm
  exact Mono.mulVar_good h (hp.2 x hx) hv

theorem forall₂_good {Q : Mono R → Mono R → Prop} {l l' : List (Mono R)}
    (h : List.Forall₂ Q l l') (hQ : ∀ a b, Q a b → GoodM P D b) : GoodL P D l' := by
  induction h with
  | nil => simp [GoodL]
  | cons h _ ih =>
    intro m hm
    rcases List.mem_cons.mp hm with rfl | hm
    · exact hQ _ _ h
    · exact ih m hm

theorem forall₂_ne {Q : Mono R → Mono R → Prop} {l l' : List (Mono R)}
    (h : List.Forall₂ Q l l') (hl : l ≠ []) : l' ≠ [] := by
  cases h with
  | nil => exact absurd rfl hl
  | cons _ _ => simp

theorem Poly.mulMono_good (h : ProdIn D1 D2 D3) {p : Poly R} (hp : Good P D1 (.poly p))
    {r : Mono R} (hr : GoodM P D2 r) : Go.Ok (p.mulMono r) (Good P D3) := by
  unfold Poly.mulMono
  rw [GoodL.check hp.1 hp.2, hr.canon.check, Go.ok_bind, Go.ok_bind]
  refine (Go.mapM_ok _ _ p.monos (fun m hm => Mono.mulMono_good h (hp.2 m hm) hr)).bind ?_
  intro ms hms
  exact Poly.asSimplified_good (forall₂_ne hms hp.1) (forall₂_good hms (fun _ _ h => h.1))

theorem Poly.mulPoly_good (h : ProdIn D1 D2 D3) {p q : Poly R} (hp : Good P D1 (.poly p))
    (hq : Good P D2 (.poly q)) : Go.Ok (p.mulPoly q) (Good P D3) := by
  unfold Poly.mulPoly
  rw [GoodL.check hp.1 hp.2, GoodL.check hq.1 hq.2, Go.ok_bind, Go.ok_bind]
  refine (Go.foldlM_ok _ (Good P D3) _ (Scalar.k GoNum.zero) trivial ?_).bind (fun _ h => Scalar.asSimplified_good h)
  intro acc r hr hacc
  exact (Poly.mulMono_good h hp (hq.2 r hr)).bind (fun s hs => Scalar.plus_good hacc hs)

theorem Mono.mul_good (h : ProdIn D1 D2 D3) {m : Mono R} (hm : GoodM P D1 m) {e : Scalar R}
    (he : Good P D2 e) : Go.Ok (m.mul e) (Good P D3) := by
  unfold Mono.mul
  rw [hm.canon.check, he.check, Go.ok_bind, Go.ok_bind]
  cases e with
  | k c =>
    exact Go.ok_pure (P := Good P D3) (a := Scalar.mono (m.mulK c))
      ((Mono.mulK_good hm c).weaken (fun _ h => h) h.left)
  | var v => exact Go.ok_pure (P := Good P D3) (a := Scalar.mono (m.mulVar v)) (Mono.mulVar_good h hm he)
  | mono r => exact (Mono.mulMono_good h hm he).bind (fun _ h => Go.ok_pure h.1)
  | poly p => exact Poly.mulMono_good h.symm he hm

theorem Poly.mul_good (h : ProdIn D1 D2 D3) {p : Poly R} (hp : Good P D1 (.poly p)) {e : Scalar R}
    (he : Good P D2 e) : Go.Ok (p.mul e) (Good P D3) := by
  cases e with
  | k c => exact (Poly.mulK_good hp c).mono (fun _ hs => hs.weaken (fun _ h => h) h.left)
  | var v => exact Poly.mulVar_good h hp he
  | mono m => exact Poly.mulMono_good h hp he
  | poly q => exact Poly.mulPoly_good h hp he

theorem single_two (i : ℕ) : (Finsupp.single i 2 : ℕ →₀ ℕ) =
    Finsupp.single i 1 + Finsupp.single i 1 := by
  rw [← Finsupp.single_add]

theorem goodM_two (h : ProdIn D1 D2 D3) {v w : Var R} (hv : Good P D1 (.var v))
    (hw : Good P D2 (.var w)) (e : w.id = v.id) : GoodM P D3 ⟨(GoNum.one : R), [2], [v]⟩ := by
  refine ⟨⟨rfl, by simp, by simp, by simpa using hv.1⟩, by simpa using hv.2.1, Or.inr ?_⟩
  rw [Var.degs_one]
  show Finsupp.single v.id 2 ∈ D3
  rw [single_two]
  exact h.add _ hv.2.2 _ (e ▸ hw.2.2)

theorem goodM_vw (h : ProdIn D1 D2 D3) {v w : Var R} (hv : Good P D1 (.var v))
    (hw : Good P D2 (.var w)) (e : ¬ w.id = v.id) :
    GoodM P D3 ⟨(GoNum.one : R), [1, 1], [v, w]⟩ := by
  refine ⟨⟨rfl, by simp, ?_, ?_⟩, ?_, Or.inr ?_⟩
  · simpa [List.nodup_cons] using fun h => e h.symm
  · intro x hx
    simp only [List.mem_cons, List.not_mem_nil, or_false] at hx
    rcases hx with rfl | rfl
    · exact hv.1
    · exact hw.1
  · intro x hx
    simp only [List.mem_cons, List.not_mem_nil, or_false] at hx
    rcases hx with rfl | rfl
    · exact hv.2.1
    · exact hw.2.1
  · have : Mono.degs ⟨(GoNum.one : R), [1, 1], [v, w]⟩ =
        Finsupp.single v.id 1 + Finsupp.single w.id 1 := by simp [Mono.degs]
    rw [this]
    exact h.add _ hv.2.2 _ hw.2.2

theorem Var.mul_good (h : ProdIn D1 D2 D3) {v : Var R} (hv : Good P D1 (.var v)) {e : Scalar R}
    (he : Good P D2 e) : Go.Ok (v.mul e) (Good P D3) := by
  unfold Var.mul
  rw [hv.1.check, he.check, Go.ok_bind, Go.ok_bind]
  cases e with
  | k c =>
    simp only [Go.pure_eq, Go.ok_bind]
    exact Scalar.asSimplified_good (s := .mono _)
      (goodM_var hv.1 hv.2.1 (h.left hv.2.2) c)
  | var w =>
    simp only [Go.pure_eq, Go.ok_bind]
    split
    · rename_i e
      exact Scalar.asSimplified_good (s := .mono _) (goodM_two h hv he e)
    · rename_i e
      exact Scalar.asSimplified_good (s := .mono _) (goodM_vw h hv he e)
  | mono m => exact (Mono.mul_good h.symm he hv).bind (fun _ h => Scalar.asSimplified_good h)
  | poly p => exact (Poly.mulVar_good h.symm he hv).bind (fun _ h => Scalar.asSimplified_good h)

theorem prodIn_const (D : Set (ℕ →₀ ℕ)) : ProdIn D ∅ D :=
  ⟨subset_rfl, Set.empty_subset _, fun _ _ _ h => h.elim⟩

theorem kMul_good (c : R) {e : Scalar R} (he : Good P D e) : Go.Ok (kMul c e) (Good P D) := by
  unfold kMul
  rw [he.check, Go.ok_bind]
  cases e with
  | k d => exact Go.ok_pure trivial
  | var v => exact Var.mul_good (prodIn_const D) he (e := .k c) trivial
  | mono m => exact Mono.mul_good (prodIn_const D) he (e := .k c) trivial
  | poly p => exact Poly.mulK_good he c

/-- On well-formed operands `Multiply` returns a well-formed result. -/
theorem Scalar.mul_good (h : ProdIn D1 D2 D3) {a b : Scalar R} (ha : Good P D1 a)
    (hb : Good P D2 b) : Go.Ok (a.mul b) (Good P D3) := by
  cases a with
  | k c => exact (kMul_good c hb).mono (fun _ hs => hs.weaken (fun _ h => h) h.right)
  | var v => exact Var.mul_good h ha hb
  | mono m => exact Mono.mul_good h ha hb
  | poly p => exact Poly.mul_good h ha hb

theorem Scalar.mulF64_good {a : Scalar R} (ha : Good P D a) (c : R) :
    Go.Ok (a.mulF64 c) (Good P D) := by
  cases a with
  | k d => exact kMul_good d (e := .k c) trivial
  | mono m => exact Mono.mul_good (prodIn_const D) ha (e := .k c) trivial
  | var v =>
    exact (Scalar.mul_good (a := .var v) (b := .k c) (prodIn_const D) ha trivial).bind
      (fun _ h => Scalar.asSimplified_good h)
  | poly p =>
    exact (Scalar.mul_good (a := .poly p) (b := .k c) (prodIn_const D) ha trivial).bind
      (fun _ h => Scalar.asSimplified_good h)

theorem Scalar.plusF64_good {a : Scalar R} (ha : Good P D a) (c : R) :
    Go.Ok (a.plusF64 c) (Good P D) := by
  cases a with
  | k d => exact Scalar.plus_good (a := .k d) (b := .k c) trivial trivial
  | var v =>
    exact (Scalar.plus_good (a := .var v) (b := .k c) ha trivial).bind
      (fun _ h => Scalar.asSimplified_good h)
  | mono m =>
    exact (Scalar.plus_good (a := .mono m) (b := .k c) ha trivial).bind
      (fun _ h => Scalar.asSimplified_good h)
  | poly p =>
    exact (Scalar.plus_good (a := .poly p) (b := .k c) ha trivial).bind
      (fun _ h => Scalar.asSimplified_good h)

theorem Scalar.minus_good {a b : Scalar R} (ha : Good P D a) (hb : Good P D b) :
    Go.Ok (a.minus b) (Good P D) := by
  unfold Scalar.minus
  rw [ha.check, hb.check, Go.ok_bind, Go.ok_bind]
  exact (Scalar.mulF64_good hb negOne).bind (fun _ h => Scalar.plus_good ha h)

theorem NSum.succ {n d} (h : NSum D n d) : NSum D (n + 1) d := by
  induction h with
  | one hd => exact .one hd
  | add _ hd ih => exact .add ih hd

theorem prodIn_nsum (D : Set (ℕ →₀ ℕ)) (n : ℕ) :
    ProdIn {d | NSum D n d} D {d | NSum D (n + 1) d} :=
  ⟨fun _ h => h.succ, fun _ h => .one h, fun _ hd _ hd' => .add hd hd'⟩

theorem powLoop_good {base : Scalar R} (hb : Good P D base) (n k : ℕ) {acc : Scalar R}
    (ha : Good P {d | NSum D k d} acc) :
    Go.Ok (powLoop base n acc) (Good P {d | NSum D (n + k) d}) := by
  induction n generalizing k acc with
  | zero => rw [Nat.zero_add]; exact Go.ok_pure ha
  | succ n ih =>
    unfold powLoop
    rw [show n + 1 + k = n + (k + 1) by omega]
    exact (Scalar.mul_good (prodIn_nsum D k) ha hb).bind (fun s hs => ih (k + 1) hs)

theorem Scalar.power_good {base : Scalar R} (hb : Good P D base) {n : Int} (hn : 0 ≤ n) :
    Go.Ok (base.power n) (Good P {d | NSum D n.toNat d}) := by
  unfold Scalar.power
  rw [hb.check, Go.ok_bind]
  have : ¬ n < 0 := by omega
  rw [if_neg this]
  exact powLoop_good hb n.toNat 0 (acc := .k GoNum.one) trivial

end Struct

section Value

open MvPolynomial

variable {R : Type} [Field R] [LinearOrder R]
variable {P P' : Var R → Prop} {D D' D1 D2 D3 : Set (ℕ →₀ ℕ)}

theorem Mono.mulK_den (m : Mono R) (c : R) : (m.mulK c).den = m.den * C c := by
  unfold Mono.den
  rw [show (m.mulK c).degs = m.degs from rfl, mul_comm, C_mul_monomial]
  congr 1
  show m.coeff * c = _
  rw [mul_comm]

theorem Mono.mulVar_den {m : Mono R} (hm : m.Canon) {v : Var R} (hv : v.OK) :
    (m.mulVar v).den = m.den * X v.id := by
  obtain ⟨-, h2, h3, -⟩ := Mono.mulVar_spec hm hv
  rw [Mono.den_degs h2, h3]
  unfold Mono.den
  rw [X, monomial_mul, mul_one]

theorem den_mul_of_degs {p m r : Mono R} (hd : p.degs = m.degs + r.degs)
    (hc : p.coeff = m.coeff * r.coeff) : p.den = m.den * r.den := by
  rw [Mono.den_degs hd, hc]
  unfold Mono.den
  rw [monomial_mul]

theorem lden_map {l : List (Mono R)} {f : Mono R → Mono R} {q : MvPolynomial ℕ R}
    (h : ∀ m ∈ l, (f m).den = m.den * q) : lden (l.map f) = lden l * q := by
  induction l with
  | nil => simp
  | cons a l ih =>
    rw [List.map_cons, lden_cons, lden_cons, h a (by simp), ih (fun m hm => h m (by simp [hm]))]
    ring

theorem lden_forall₂ {l l' : List (Mono R)} {q : MvPolynomial ℕ R}
    (h : List.Forall₂ (fun m p => p.den = m.den * q) l l') : lden l' = lden l * q := by
  induction h with
  | nil => simp
  | cons h _ ih =>
    rw [lden_cons, lden_cons, h, ih]
    ring

theorem Poly.mulK_den (hD : RearrFree D) {p : Poly R} (hp : Good P D (.poly p)) (c : R) :
    Go.Ok (p.mulK c) (GoodDen P D (lden p.monos * C c)) := by
  unfold Poly.mulK
  rw [GoodL.check hp.1 hp.2, Go.ok_bind, ← lden_map (fun m _ => Mono.mulK_den m c)]
  refine Poly.asSimplified_den (p := ⟨_⟩) hD (by simpa using hp.1) ?_
  intro m hm
  obtain ⟨x, hx, rfl⟩ := List.mem_map.mp hm
  exact Mono.mulK_good (hp.2 x hx) c

theorem Poly.mulVar_den (h : ProdIn D1 D2 D3) (hD : RearrFree D3) {p : Poly R}
    (hp : Good P D1 (.poly p)) {v : Var R} (hv : Good P D2 (.var v)) :
    Go.Ok (p.mulVar v) (GoodDen P D3 (lden p.monos * X v.id)) := by
  unfold Poly.mulVar
  rw [GoodL.check hp.1 hp.2, hv.1.check, Go.ok_bind, Go.ok_bind,
    ← lden_map (fun m hm => Mono.mulVar_den (hp.2 m hm).canon hv.1)]
  refine Poly.asSimplified_den (p := ⟨_⟩) hD (by simpa using hp.1) ?_
  intro m hm
  obtain ⟨x, hx, rfl⟩ := List.mem_map.mp hm
  exact Mono.mulVar_good h (hp.2 x hx) hv

theorem Poly.mulMono_den (h : ProdIn D1 D2 D3) (hD : RearrFree D3) {p : Poly R}
    (hp : Good P D1 (.poly p)) {r : Mono R} (hr : GoodM P D2 r) :
    Go.Ok (p.mulMono r) (GoodDen P D3 (lden p.monos * r.den)) := by
  unfold Poly.mulMono
  rw [GoodL.check hp.1 hp.2, hr.canon.check, Go.ok_bind, Go.ok_bind]
  refine (Go.mapM_ok _ _ p.monos (fun m hm => Mono.mulMono_good h (hp.2 m hm) hr)).bind ?_
  intro ms hms
  have : lden ms = lden p.monos * r.den :=
    lden_forall₂ (hms.imp (fun _ _ hh => den_mul_of_degs hh.2.1 hh.2.2))
  rw [← this]
  exact Poly.asSimplified_den (p := ⟨ms⟩) hD (forall₂_ne hms hp.1)
    (forall₂_good hms (fun _ _ h => h.1))

theorem Poly.mulPoly_den (h : ProdIn D1 D2 D3) (hD : RearrFree D3) {p q : Poly R}
    (hp : Good P D1 (.poly p)) (hq : Good P D2 (.poly q)) :
    Go.Ok (p.mulPoly q) (GoodDen P D3 (lden p.monos * lden q.monos)) := by
  unfold Poly.mulPoly
  rw [GoodL.check hp.1 hp.2, GoodL.check hq.1 hq.2, Go.ok_bind, Go.ok_bind]
  refine (Go.foldlM_ok' _ (fun pre s => GoodDen P D3 (lden p.monos * lden pre) s) _ (Scalar.k GoNum.zero)
    ⟨trivial, by simp⟩ ?_).bind (fun _ h => Scalar.asSimplified_den hD h)
  rintro pre r acc ⟨post, hpost⟩ ⟨hacc, hden⟩
  have hr : r ∈ q.monos := by rw [hpost]; simp
  refine (Poly.mulMono_den h hD hp (hq.2 r hr)).bind (fun s hs => ?_)
  refine (Scalar.plus_den hD hacc hs.1).mono (fun t ht => ⟨ht.1, ?_⟩)
  rw [ht.2, hden, hs.2, lden_append, lden_cons, lden_nil]
  ring

theorem Mono.mul_den (h : ProdIn D1 D2 D3) (hD : RearrFree D3) {m : Mono R} (hm : GoodM P D1 m)
    {e : Scalar R} (he : Good P D2 e) : Go.Ok (m.mul e) (GoodDen P D3 (m.den * e.den)) := by
  unfold Mono.mul
  rw [hm.canon.check, he.check, Go.ok_bind, Go.ok_bind]
  cases e with
  | k c =>
    exact Go.ok_pure (P := GoodDen P D3 _) (a := Scalar.mono (m.mulK c))
      ⟨(Mono.mulK_good hm c).weaken (fun _ h => h) h.left, Mono.mulK_den m c⟩
  | var v =>
    exact Go.ok_pure (P := GoodDen P D3 _) (a := Scalar.mono (m.mulVar v))
      ⟨Mono.mulVar_good h hm he, Mono.mulVar_den hm.canon he.1⟩
  | mono r =>
    exact (Mono.mulMono_good h hm he).bind
      (fun _ h => Go.ok_pure ⟨h.1, den_mul_of_degs h.2.1 h.2.2⟩)
  | poly p =>
    rw [mul_comm]
    exact Poly.mulMono_den h.symm hD he hm

theorem Poly.mul_den (h : ProdIn D1 D2 D3) (hD : RearrFree D3) {p : Poly R}
    (hp : Good P D1 (.poly p)) {e : Scalar R} (he : Good P D2 e) :
    Go.Ok (p.mul e) (GoodDen P D3 (lden p.monos * e.den)) := by
  cases e with
  | k c => exact Poly.mulK_den hD (hp.weaken (fun _ h => h) h.left) c
  | var v => exact Poly.mulVar_den h hD hp he
  | mono m => exact Poly.mulMono_den h hD hp he
  | poly q => exact Poly.mulPoly_den h hD hp he

theorem Var.mul_den (h : ProdIn D1 D2 D3) (hD : RearrFree D3) {v : Var R}
    (hv : Good P D1 (.var v)) {e : Scalar R} (he : Good P D2 e) :
    Go.Ok (v.mul e) (GoodDen P D3 (X v.id * e.den)) := by
  unfold Var.mul
  rw [hv.1.check, he.check, Go.ok_bind, Go.ok_bind]
  cases e with
  | k c =>
    simp only [Go.pure_eq, Go.ok_bind]
    refine Scalar.asSimplified_den hD (s := .mono _)
      ⟨goodM_var hv.1 hv.2.1 (h.left hv.2.2) c, ?_⟩
    rw [Scalar.den_mono, den_one_var, mul_comm]; rfl
  | var w =>
    simp only [Go.pure_eq, Go.ok_bind]
    split
    · rename_i e
      refine Scalar.asSimplified_den hD (s := .mono _) ⟨goodM_two h hv he e, ?_⟩
      rw [Scalar.den_mono, Mono.den_eq_prod]
      simp [e, pow_two]
    · rename_i e
      refine Scalar.asSimplified_den hD (s := .mono _) ⟨goodM_vw h hv he e, ?_⟩
      rw [Scalar.den_mono, Mono.den_eq_prod]
      simp
  | mono m =>
    refine (Mono.mul_den h.symm hD he hv).bind (fun _ h => ?_)
    rw [mul_comm] at h
    exact Scalar.asSimplified_den hD h
  | poly p =>
    refine (Poly.mulVar_den h.symm hD he hv).bind (fun _ h => ?_)
    rw [mul_comm] at h
    exact Scalar.asSimplified_den hD h

theorem kMul_den (hD : RearrFree D) (c : R) {e : Scalar R} (he : Good P D e) :
    Go.Ok (kMul c e) (GoodDen P D (C c * e.den)) := by
  unfold kMul
  rw [he.check, Go.ok_bind]
  cases e with
  | k d => exact Go.ok_pure ⟨trivial, by simp⟩
  | var v => rw [mul_comm]; exact Var.mul_den (prodIn_const D) hD he (e := .k c) trivial
  | mono m => rw [mul_comm]; exact Mono.mul_den (prodIn_const D) hD he (e := .k c) trivial
  | poly p => rw [mul_comm]; exact Poly.mulK_den hD he c

/-- `Multiply` multiplies the denotations. -/
theorem Scalar.mul_den (h : ProdIn D1 D2 D3) (hD : RearrFree D3) {a b : Scalar R}
    (ha : Good P D1 a) (hb : Good P D2 b) : Go.Ok (a.mul b) (GoodDen P D3 (a.den * b.den)) := by
  cases a with
  | k c => exact kMul_den hD c (hb.weaken (fun _ h => h) h.right)
  | var v => exact Var.mul_den h hD ha hb
  | mono m => exact Mono.mul_den h hD ha hb
  | poly p => exact Poly.mul_den h hD ha hb

theorem Scalar.mulF64_den (hD : RearrFree D) {a : Scalar R} (ha : Good P D a) (c : R) :
    Go.Ok (a.mulF64 c) (GoodDen P D (a.den * C c)) := by
  cases a with
  | k d => exact kMul_den hD d (e := .k c) trivial
  | mono m => exact Mono.mul_den (prodIn_const D) hD ha (e := .k c) trivial
  | var v =>
    exact (Scalar.mul_den (a := .var v) (b := .k c) (prodIn_const D) hD ha trivial).bind
      (fun _ h => Scalar.asSimplified_den hD h)
  | poly p =>
    exact (Scalar.mul_den (a := .poly p) (b := .k c) (prodIn_const D) hD ha trivial).bind
      (fun _ h => Scalar.asSimplified_den hD h)

theorem Scalar.plusF64_den (hD : RearrFree D) {a : Scalar R} (ha : Good P D a) (c : R) :
    Go.Ok (a.plusF64 c) (GoodDen P D (a.den + C c)) := by
  cases a with
  | k d => exact Scalar.plus_den hD (a := .k d) (b := .k c) trivial trivial
  | var v =>
    exact (Scalar.plus_den hD (a := .var v) (b := .k c) ha trivial).bind
      (fun _ h => Scalar.asSimplified_den hD h)
  | mono m =>
    exact (Scalar.plus_den hD (a := .mono m) (b := .k c) ha trivial).bind
      (fun _ h => Scalar.asSimplified_den hD h)
  | poly p =>
    exact (Scalar.plus_den hD (a := .poly p) (b := .k c) ha trivial).bind
      (fun _ h => Scalar.asSimplified_den hD h)

theorem Scalar.minus_den (hD : RearrFree D) {a b : Scalar R} (ha : Good P D a) (hb : Good P D b) :
    Go.Ok (a.minus b) (GoodDen P D (a.den - b.den)) := by
  unfold Scalar.minus
  rw [ha.check, hb.check, Go.ok_bind, Go.ok_bind]
  refine (Scalar.mulF64_den hD hb negOne).bind (fun s hs => ?_)
  refine (Scalar.plus_den hD ha hs.1).mono (fun t ht => ⟨ht.1, ?_⟩)
  rw [ht.2, hs.2]
  unfold negOne
  simp [sub_eq_add_neg]

theorem powLoop_den {base : Scalar R} (hb : Good P D base) (n k : ℕ) {acc : Scalar R}
    (hD : RearrFree {d | NSum D (n + k) d}) (ha : Good P {d | NSum D k d} acc) :
    Go.Ok (powLoop base n acc)
      (GoodDen P {d | NSum D (n + k) d} (acc.den * base.den ^ n)) := by
  induction n generalizing k acc with
  | zero =>
    rw [Nat.zero_add]
    exact Go.ok_pure ⟨ha, by simp⟩
  | succ n ih =>
    unfold powLoop
    have e : n + 1 + k = n + (k + 1) := by omega
    rw [e] at hD ⊢
    have hD' : RearrFree {d | NSum D (k + 1) d} := by
      intro d hd d' hd'
      have up : ∀ j d, NSum D (k + 1) d → NSum D (j + (k + 1)) d := by
        intro j d hd
        induction j with
        | zero => simpa using hd
        | succ j ih => rw [show j + 1 + (k + 1) = j + (k + 1) + 1 by omega]; exact ih.succ
      exact hD d (up n d hd) d' (up n d' hd')
    refine (Scalar.mul_den (prodIn_nsum D k) hD' ha hb).bind (fun s hs => ?_)
    have := ih (k + 1) hD hs.1
    rw [hs.2] at this
    rwa [mul_assoc, ← pow_succ'] at this

theorem Scalar.power_den {base : Scalar R} (hb : Good P D base) {n : Int} (hn : 0 ≤ n)
    (hD : RearrFree {d | NSum D n.toNat d}) :
    Go.Ok (base.power n) (GoodDen P {d | NSum D n.toNat d} (base.den ^ n.toNat)) := by
  unfold Scalar.power
  rw [hb.check, Go.ok_bind]
  have : ¬ n < 0 := by omega
  rw [if_neg this]
  have := powLoop_den hb n.toNat 0 (acc := .k GoNum.one) hD trivial
  simpa using this

/-! ## Products without polynomials need no condition -/

/-- Not a polynomial, well formed, with the given denotation. -/
def NonPolyDen (f : MvPolynomial ℕ R) (r : Scalar R) : Prop :=
  r.Canon ∧ (∀ p, r ≠ .poly p) ∧ r.den = f

theorem Mono.asSimplified_nonpoly {m : Mono R} (hm : m.Canon) :
    Go.Ok m.asSimplified (NonPolyDen m.den) := by
  have hg : GoodM (fun _ => True) Set.univ m := ⟨hm, fun _ _ => trivial, Or.inr trivial⟩
  obtain ⟨r, h1, h2, h3⟩ := Mono.asSimplified_den hg
  refine ⟨r, h1, ?_, ?_, h3⟩
  · cases r with
    | k c => trivial
    | var v => exact h2.1
    | mono m => exact h2.canon
    | poly p => exact ⟨h2.1, fun m hm => (h2.2 m hm).canon⟩
  · rw [Mono.asSimplified_eq hm, Except.ok.injEq] at h1
    subst h1
    intro p
    split
    · simp
    · split
      · simp
      · split
        · split <;> simp
        · simp

theorem Mono.mul_nonpoly {m : Mono R} (hm : m.Canon) {e : Scalar R} (he : e.Canon)
    (ne : ∀ p, e ≠ .poly p) : Go.Ok (m.mul e) (NonPolyDen (m.den * e.den)) := by
  have hg : GoodM (fun _ => True) Set.univ m := ⟨hm, fun _ _ => trivial, Or.inr trivial⟩
  have hu : ProdIn Set.univ Set.univ (Set.univ : Set (ℕ →₀ ℕ)) :=
    ⟨subset_rfl, subset_rfl, fun _ _ _ _ => trivial⟩
  unfold Mono.mul
  rw [hm.check, Go.ok_bind]
  cases e with
  | k c =>
    exact ⟨.mono (m.mulK c), rfl, (Mono.mulK_good hg c).canon, by simp, Mono.mulK_den m c⟩
  | var v =>
    have hv : v.OK := he
    rw [show (Scalar.var v).check = v.check from rfl, hv.check, Go.ok_bind]
    exact ⟨.mono (m.mulVar v), rfl, (Mono.mulVar_spec hm hv).1, by simp, Mono.mulVar_den hm hv⟩
  | mono r =>
    have hr : r.Canon := he
    rw [show (Scalar.mono r).check = r.check from rfl, hr.check, Go.ok_bind]
    refine (Mono.mulMono_ok hm hr).bind (fun p hp => ?_)
    exact ⟨.mono p, rfl, hp.1, by simp, den_mul_of_degs hp.2.1 hp.2.2.1⟩
  | poly p => exact absurd rfl (ne p)

theorem Var.mul_nonpoly {v : Var R} (hv : v.OK) {e : Scalar R} (he : e.Canon)
    (ne : ∀ p, e ≠ .poly p) : Go.Ok (v.mul e) (NonPolyDen (X v.id * e.den)) := by
  have hu : ProdIn Set.univ Set.univ (Set.univ : Set (ℕ →₀ ℕ)) :=
    ⟨subset_rfl, subset_rfl, fun _ _ _ _ => trivial⟩
  have hgv : Good (fun _ => True) Set.univ (.var v) := ⟨hv, trivial, trivial⟩
  unfold Var.mul
  rw [hv.check, Go.ok_bind]
  cases e with
  | k c =>
    simp only [Scalar.check, Go.pure_eq, Go.ok_bind]
    have := Mono.asSimplified_nonpoly (m := ⟨c, [1], [v]⟩)
      (goodM_var (P := fun _ => True) (D := Set.univ) hv trivial trivial c).canon
    rw [den_one_var, mul_comm] at this
    exact this
  | var w =>
    have hw : w.OK := he
    have hgw : Good (fun _ => True) Set.univ (.var w) := ⟨hw, trivial, trivial⟩
    rw [show (Scalar.var w).check = w.check from rfl, hw.check, Go.ok_bind]
    simp only [Go.pure_eq, Go.ok_bind]
    split
    · rename_i e
      have := Mono.asSimplified_nonpoly (goodM_two hu hgv hgw e).canon
      rw [show (Mono.den ⟨(GoNum.one : R), [2], [v]⟩) = X v.id * (Scalar.var w).den by
        rw [Mono.den_eq_prod]; simp [e, pow_two]] at this
      exact this
    · rename_i e
      have := Mono.asSimplified_nonpoly (goodM_vw hu hgv hgw e).canon
      rw [show (Mono.den ⟨(GoNum.one : R), [1, 1], [v, w]⟩) = X v.id * (Scalar.var w).den by
        rw [Mono.den_eq_prod]; simp] at this
      exact this
  | mono m =>
    have hm : m.Canon := he
    rw [show (Scalar.mono m).check = m.check from rfl, hm.check, Go.ok_bind]
    refine (Mono.mul_nonpoly hm (e := .var v) hv (by simp)).bind ?_
    rintro s ⟨h1, h2, h3⟩
    rw [Scalar.den_mono, mul_comm, ← Scalar.den_var, ← h3]
    cases s with
    | k c => exact ⟨.k c, rfl, trivial, by simp, rfl⟩
    | var w => exact ⟨.var w, rfl, h1, by simp, rfl⟩
    | mono r => exact Mono.asSimplified_nonpoly h1
    | poly p => exact absurd rfl (h2 p)
  | poly p => exact absurd rfl (ne p)

theorem Scalar.mul_den_nonpoly {a b : Scalar R} (ha : a.Canon) (hb : b.Canon)
    (na : ∀ p, a ≠ .poly p) (nb : ∀ p, b ≠ .poly p) :
    Go.Ok (a.mul b) (NonPolyDen (a.den * b.den)) := by
  cases a with
  | k c =>
    unfold Scalar.mul kMul
    cases b with
    | k d => exact ⟨.k (c * d), rfl, trivial, by simp, by simp⟩
    | var v =>
      have hv : v.OK := hb
      simp only [Scalar.check, hv.check, Go.ok_bind]
      have := Var.mul_nonpoly hv (e := .k c) trivial (by simp)
      rw [mul_comm] at this
      exact this
    | mono m =>
      have hm : m.Canon := hb
      simp only [Scalar.check, hm.check, Go.ok_bind]
      have := Mono.mul_nonpoly hm (e := .k c) trivial (by simp)
      rw [mul_comm] at this
      exact this
    | poly p => exact absurd rfl (nb p)
  | var v => exact Var.mul_nonpoly ha hb nb
  | mono m => exact Mono.mul_nonpoly ha hb nb
  | poly p => exact absurd rfl (na p)

theorem powLoop_nonpoly {base : Scalar R} (hb : base.Canon) (nb : ∀ p, base ≠ .poly p) (n : ℕ)
    {acc : Scalar R} (ha : acc.Canon) (na : ∀ p, acc ≠ .poly p) :
    Go.Ok (powLoop base n acc) (NonPolyDen (acc.den * base.den ^ n)) := by
  induction n generalizing acc with
  | zero => exact ⟨acc, rfl, ha, na, by simp⟩
  | succ n ih =>
    unfold powLoop
    refine (Scalar.mul_den_nonpoly ha hb na nb).bind ?_
    rintro s ⟨h1, h2, h3⟩
    have := ih h1 h2
    rw [h3] at this
    rwa [mul_assoc, ← pow_succ'] at this

theorem Scalar.power_den_nonpoly {base : Scalar R} (hb : base.Canon) (nb : ∀ p, base ≠ .poly p)
    {n : Int} (hn : 0 ≤ n) : Go.Ok (base.power n) (NonPolyDen (base.den ^ n.toNat)) := by
  have hc : base.check = .ok () := by
    cases base with
    | k c => rfl
    | var v => exact Var.OK.check hb
    | mono m => exact Mono.Canon.check hb
    | poly p => exact absurd rfl (nb p)
  unfold Scalar.power
  rw [hc, Go.ok_bind]
  have : ¬ n < 0 := by omega
  rw [if_neg this]
  have := powLoop_nonpoly hb nb n.toNat (acc := .k GoNum.one) trivial (by simp)
  simpa using this

end Value

end Verif
