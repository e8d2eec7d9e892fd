import Verif.Lemmas.CoefSum

/-!
# The coefficients of products, number for number

On families of terms where matching terms are alike, every coefficient of a product is the sum of the products of
coefficients in the number type, added in the order of the terms of the second factor.
-/

set_option linter.unusedSectionVars false

namespace Verif

variable {R : Type} [GoNum R]
variable {N : R → Prop} {P : Var R → Prop} {D D1 D2 D3 : Set (ℕ →₀ ℕ)}

/-- What products need besides `CoefLaws`. -/
structure ProdLaws (N : R → Prop) : Prop extends CoefLaws N where
  mul : ∀ x y, N x → N y → N (GoNum.mul x y)
  mul_comm : ∀ x y : R, GoNum.mul x y = GoNum.mul y x
  mul_one : ∀ x, N x → GoNum.mul x GoNum.one = x

/-- The coefficient of `d` in the terms `l` times a term with the exponents `e` and the coefficient `c`. -/
noncomputable def lshift (l : List (Mono R)) (e : ℕ →₀ ℕ) (c : R) (d : ℕ →₀ ℕ) : R :=
  open Classical in if ∃ m ∈ l, m.degs + e = d then GoNum.mul (fco (d - e) l) c else GoNum.zero

/-- The coefficient of `d` in the product of two term lists. -/
noncomputable def conv (l l' : List (Mono R)) (d : ℕ →₀ ℕ) : R :=
  l'.foldl (fun acc m => GoNum.add acc (lshift l m.degs m.coeff d)) GoNum.zero

/-- `p` is the product of the terms `m` and `r`. -/
def TermProd (r m p : Mono R) : Prop := p.degs = m.degs + r.degs ∧ p.coeff = GoNum.mul m.coeff r.coeff

section Lists
variable {d : ℕ →₀ ℕ}

theorem lshift_pos {l : List (Mono R)} {e : ℕ →₀ ℕ} {c : R} (h : ∃ m ∈ l, m.degs + e = d) :
    lshift l e c d = GoNum.mul (fco (d - e) l) c := if_pos h

theorem lshift_neg {l : List (Mono R)} {e : ℕ →₀ ℕ} {c : R} (h : ¬∃ m ∈ l, m.degs + e = d) :
    lshift l e c d = GoNum.zero := if_neg h

theorem lshift_num (L : ProdLaws N) {l : List (Mono R)} (hl : NumL N l) {e : ℕ →₀ ℕ} {c : R} (hc : N c) :
    N (lshift l e c d) := by
  unfold lshift
  split
  · exact L.mul _ _ (fco_num L.toCoefLaws hl) hc
  · exact L.zero

theorem fco_shift {r : Mono R} {l l' : List (Mono R)} (h : List.Forall₂ (TermProd r) l l') :
    fco d l' = lshift l r.degs r.coeff d := by
  induction h with
  | nil => rw [lshift_neg (by simp)]; rfl
  | @cons m p l l' hp h ih =>
    rw [fco_cons, hp.1, ih]
    by_cases hd : m.degs + r.degs = d
    · rw [if_pos hd, lshift_pos ⟨m, by simp, hd⟩, fco_cons, if_pos (by rw [← hd, add_tsub_cancel_right]), hp.2]
    · rw [if_neg hd]
      by_cases ht : ∃ x ∈ l, x.degs + r.degs = d
      · rw [lshift_pos ht, lshift_pos (ht.imp fun x hx => ⟨by simp [hx.1], hx.2⟩), fco_cons, if_neg]
        intro e
        obtain ⟨x, -, hx⟩ := ht
        exact hd (by rw [e, ← hx, add_tsub_cancel_right])
      · rw [lshift_neg ht, lshift_neg]
        rintro ⟨x, hx, e⟩
        rcases List.mem_cons.mp hx with rfl | hx
        · exact hd e
        · exact ht ⟨x, hx, e⟩

theorem once_shift {r : Mono R} {l l' : List (Mono R)} (h : List.Forall₂ (TermProd r) l l') (ho : OnceL l) :
    OnceL l' := by
  have e : l'.map Mono.degs = (l.map Mono.degs).map (· + r.degs) := by
    induction h with
    | nil => rfl
    | cons hp _ ih =>
      unfold OnceL at ho
      rw [List.map_cons, List.nodup_cons] at ho
      rw [List.map_cons, List.map_cons, List.map_cons, ih ho.2, hp.1]
  unfold OnceL
  rw [e]
  exact ho.map fun x y h => add_right_cancel h

theorem num_shift (L : ProdLaws N) {r : Mono R} {l l' : List (Mono R)} (h : List.Forall₂ (TermProd r) l l')
    (hl : NumL N l) (hr : N r.coeff) : NumL N l' := by
  induction h with
  | nil => intro m hm; cases hm
  | @cons m p l l' hp h ih =>
    intro x hx
    rcases List.mem_cons.mp hx with rfl | hx
    · rw [hp.2]; exact L.mul _ _ (hl m (by simp)) hr
    · exact ih (fun y hy => hl y (by simp [hy])) x hx

theorem conv_single (L : ProdLaws N) {l : List (Mono R)} (hl : NumL N l) {r : Mono R} (hr : N r.coeff) :
    conv l [r] d = lshift l r.degs r.coeff d := L.zero_add _ (lshift_num L hl hr)

theorem lshift_one {m r : Mono R} (L : ProdLaws N) : lshift [m] r.degs r.coeff d =
    if r.degs + m.degs = d then GoNum.mul r.coeff m.coeff else GoNum.zero := by
  by_cases h : r.degs + m.degs = d
  · rw [if_pos h, lshift_pos ⟨m, by simp, by rw [add_comm, h]⟩, fco_cons,
      if_pos (by rw [← h, add_comm, add_tsub_cancel_right]), L.mul_comm]
  · rw [if_neg h, lshift_neg]
    rintro ⟨x, hx, e⟩
    rw [List.mem_singleton] at hx
    subst hx
    exact h (by rw [add_comm, e])

theorem single_conv (L : ProdLaws N) {l : List (Mono R)} (hl : NumL N l) (ho : OnceL l) {m : Mono R} (hm : N m.coeff) :
    conv [m] l d = lshift l m.degs m.coeff d := by
  have skip : ∀ l : List (Mono R), (∀ x ∈ l, x.degs + m.degs ≠ d) → ∀ c, N c →
      l.foldl (fun acc x => GoNum.add acc (lshift [m] x.degs x.coeff d)) c = c := by
    intro l
    induction l with
    | nil => exact fun _ _ _ => rfl
    | cons x l ih =>
      intro h c hc
      rw [List.foldl_cons, lshift_one L, if_neg (h x (by simp)), L.add_zero _ hc, ih (fun y hy => h y (by simp [hy])) c hc]
  have key : ∀ l : List (Mono R), NumL N l → OnceL l →
      l.foldl (fun acc x => GoNum.add acc (lshift [m] x.degs x.coeff d)) GoNum.zero = lshift l m.degs m.coeff d := by
    intro l
    induction l with
    | nil => intro _ _; rw [lshift_neg (by simp)]; rfl
    | cons x l ih =>
      intro hl ho
      unfold OnceL at ho
      rw [List.map_cons, List.nodup_cons] at ho
      rw [List.foldl_cons, lshift_one L]
      by_cases hd : x.degs + m.degs = d
      · rw [if_pos hd, L.zero_add _ (L.mul _ _ (hl x (by simp)) hm), skip l ?_ _ (L.mul _ _ (hl x (by simp)) hm),
          lshift_pos ⟨x, by simp, hd⟩, fco_cons, if_pos (by rw [← hd, add_tsub_cancel_right])]
        intro y hy e
        exact ho.1 (List.mem_map.mpr ⟨y, hy, add_right_cancel (e.trans hd.symm)⟩)
      · rw [if_neg hd, L.add_zero _ L.zero, ih (fun y hy => hl y (by simp [hy])) ho.2]
        by_cases ht : ∃ y ∈ l, y.degs + m.degs = d
        · rw [lshift_pos ht, lshift_pos (ht.imp fun y hy => ⟨by simp [hy.1], hy.2⟩), fco_cons, if_neg]
          intro e
          obtain ⟨y, -, hy⟩ := ht
          exact hd (by rw [e, ← hy, add_tsub_cancel_right])
        · rw [lshift_neg ht, lshift_neg]
          rintro ⟨y, hy, e⟩
          rcases List.mem_cons.mp hy with rfl | hy
          · exact hd e
          · exact ht ⟨y, hy, e⟩
  exact key l hl ho

theorem conv_comm_single (L : ProdLaws N) {l : List (Mono R)} (hl : NumL N l) (ho : OnceL l) {m : Mono R}
    (hm : N m.coeff) : conv l [m] d = conv [m] l d := by
  rw [conv_single L hl hm, single_conv L hl ho hm]

end Lists

/-! ## Multiply -/

theorem forall₂_mapL {Q : Mono R → Mono R → Prop} (f : Mono R → Mono R) {l : List (Mono R)} (h : ∀ m ∈ l, Q m (f m)) :
    List.Forall₂ Q l (l.map f) := by
  induction l with
  | nil => exact .nil
  | cons m l ih => exact .cons (h m (by simp)) (ih fun x hx => h x (by simp [hx]))

section Mul
variable (L : ProdLaws N) (hD : RearrFree D3) (hF : D3 ⊆ flat) (h : ProdIn D1 D2 D3)
include L

/-- One term times one term. -/
theorem prod_one {m r p : Mono R} (hm : N m.coeff) (hr : N r.coeff) (hp : TermProd r m p) (hg : GoodM P D3 p) :
    CRes N P D3 (conv [m] [r]) (.mono p) := by
  have h2 : List.Forall₂ (TermProd r) [m] [p] := .cons hp .nil
  refine ⟨hg, num_shift L h2 (numL_single hm) hr, once_single _, fun d => ?_⟩
  rw [conv_single L (numL_single hm) hr]
  exact fco_shift h2

include hD hF

/-- Many terms times one term. -/
theorem prod_list {l l' : List (Mono R)} {r : Mono R} (hne : l ≠ []) (hl : NumL N l) (ho : OnceL l) (hr : N r.coeff)
    (hp : List.Forall₂ (fun m p => GoodM P D3 p ∧ TermProd r m p) l l') :
    Go.Ok (Poly.asSimplified ⟨l'⟩) (CRes N P D3 (conv l [r])) := by
  have h2 : List.Forall₂ (TermProd r) l l' := hp.imp fun _ _ h => h.2
  refine (Poly.asSimplified_once L.toCoefLaws hD hF (forall₂_ne hp hne) (num_shift L h2 hl hr)
    (forall₂_good hp fun _ _ h => h.1) (once_shift h2 ho)).mono fun r hr' => hr'.congr fun d => ?_
  rw [conv_single L hl hr]
  exact fco_shift h2

include h

omit hD hF in
theorem mulK_term {m : Mono R} {c : R} (hm : GoodM P D1 m) :
    GoodM P D3 (m.mulK c) ∧ TermProd (kToMono c) m (m.mulK c) :=
  ⟨(Mono.mulK_good hm c).weaken (fun _ h => h) h.left, (add_zero _).symm, rfl⟩

omit hD hF in
theorem mulVar_term {m : Mono R} {v : Var R} (hm : GoodM P D1 m) (hN : N m.coeff) (hv : Good P D2 (.var v)) :
    GoodM P D3 (m.mulVar v) ∧ TermProd v.toMono m (m.mulVar v) := by
  obtain ⟨-, h2, h3, -⟩ := Mono.mulVar_spec hm.canon hv.1
  refine ⟨Mono.mulVar_good h hm hv, ?_, ?_⟩
  · rw [h2]
    congr 1
    exact (Var.degs_one v GoNum.one 1).symm
  · rw [h3]
    exact (L.mul_one _ hN).symm

theorem Poly.mulK_coef {p : Poly R} (hp : COpd N P D1 (.poly p)) {c : R} (hc : N c) :
    Go.Ok (p.mulK c) (CRes N P D3 (conv p.monos [kToMono c])) := by
  unfold Poly.mulK
  rw [GoodL.check hp.good.1 hp.good.2, Go.ok_bind]
  exact prod_list L hD hF hp.good.1 hp.nums hp.once hc (forall₂_mapL _ fun m hm => mulK_term L h (hp.good.2 m hm))

theorem Poly.mulVar_coef {p : Poly R} (hp : COpd N P D1 (.poly p)) {v : Var R} (hv : Good P D2 (.var v)) :
    Go.Ok (p.mulVar v) (CRes N P D3 (conv p.monos [v.toMono])) := by
  unfold Poly.mulVar
  rw [GoodL.check hp.good.1 hp.good.2, hv.1.check, Go.ok_bind, Go.ok_bind]
  exact prod_list L hD hF hp.good.1 hp.nums hp.once L.one
    (forall₂_mapL _ fun m hm => mulVar_term L h (hp.good.2 m hm) (hp.nums m hm) hv)

theorem Poly.mulMono_coef {p : Poly R} (hp : COpd N P D1 (.poly p)) {r : Mono R} (hr : GoodM P D2 r) (hN : N r.coeff) :
    Go.Ok (p.mulMono r) (CRes N P D3 (conv p.monos [r])) := by
  unfold Poly.mulMono
  rw [GoodL.check hp.good.1 hp.good.2, hr.canon.check, Go.ok_bind, Go.ok_bind]
  refine (Go.mapM_ok _ _ p.monos (fun m hm => Mono.mulMono_good h (hp.good.2 m hm) hr)).bind fun ms hms => ?_
  exact prod_list L hD hF hp.good.1 hp.nums hp.once hN hms

theorem Poly.mulPoly_coef {p q : Poly R} (hp : COpd N P D1 (.poly p)) (hq : COpd N P D2 (.poly q)) :
    Go.Ok (p.mulPoly q) (CRes N P D3 (conv p.monos q.monos)) := by
  unfold Poly.mulPoly
  rw [GoodL.check hp.good.1 hp.good.2, GoodL.check hq.good.1 hq.good.2, Go.ok_bind, Go.ok_bind]
  have key : ∀ (l : List (Mono R)), (∀ r ∈ l, GoodM P D2 r ∧ N r.coeff) → ∀ (f : (ℕ →₀ ℕ) → R) (acc : Scalar R),
      CRes N P D3 f acc → Go.Ok (l.foldlM (fun acc r => do
        let prod ← p.mulMono r
        acc.plus prod) acc)
      (CRes N P D3 fun d => l.foldl (fun acc m => GoNum.add acc (lshift p.monos m.degs m.coeff d)) (f d)) := by
    intro l
    induction l with
    | nil => exact fun _ f acc ha => Go.ok_pure ha
    | cons r l ih =>
      intro hl f acc ha
      rw [List.foldlM_cons]
      refine Go.Ok.bind ((Poly.mulMono_coef L hD hF h hp (hl r (by simp)).1 (hl r (by simp)).2).bind fun s hs =>
        Scalar.plus_coef L.toCoefLaws hD hF ha.opd hs.opd |>.mono fun t ht => ht.congr fun d => ?_) fun t ht =>
          ih (fun x hx => hl x (by simp [hx])) _ t ht
      show csum acc.terms s.terms d = GoNum.add (f d) (lshift p.monos r.degs r.coeff d)
      unfold csum
      rw [ha.coef, hs.coef, conv_single (l := p.monos) L hp.nums (hl r (by simp)).2]
  refine (key q.monos (fun r hr => ⟨hq.good.2 r hr, hq.nums r hr⟩) (fun _ => GoNum.zero) (.k GoNum.zero)
    ⟨trivial, numL_single L.zero, once_single _, fun d => ?_⟩).bind fun t ht => ht.simp L.toCoefLaws hD hF
  show (if _ then GoNum.zero else GoNum.zero) = _
  simp

omit hD hF h in
theorem COpd.one_num {m : Mono R} (hm : COpd N P D (.mono m)) : N m.coeff := hm.nums m (by simp [Scalar.terms])

theorem Mono.mul_coef {m : Mono R} (hm : COpd N P D1 (.mono m)) {e : Scalar R} (he : COpd N P D2 e) :
    Go.Ok (m.mul e) (CRes N P D3 (conv [m] e.terms)) := by
  have hg : GoodM P D1 m := hm.good
  have hN : N m.coeff := hm.one_num L
  unfold Mono.mul
  rw [hg.canon.check, he.good.check, Go.ok_bind, Go.ok_bind]
  cases e with
  | k c =>
    obtain ⟨h1, h2⟩ := mulK_term (c := c) L h hg
    exact Go.ok_pure (prod_one L hN (he.nums _ (List.mem_singleton.mpr rfl)) h2 h1)
  | var v =>
    obtain ⟨h1, h2⟩ := mulVar_term L h hg hN he.good
    exact Go.ok_pure (prod_one L hN L.one h2 h1)
  | mono r =>
    exact (Mono.mulMono_good h hg he.good).bind fun p hp => Go.ok_pure (prod_one L hN (he.one_num L) hp.2 hp.1)
  | poly p =>
    exact (Poly.mulMono_coef L hD hF h.symm he hg hN).mono fun r hr => hr.congr fun d =>
      conv_comm_single L he.nums he.once hN

theorem Var.mul_coef {v : Var R} (hv : COpd N P D1 (.var v)) {e : Scalar R} (he : COpd N P D2 e) :
    Go.Ok (v.mul e) (CRes N P D3 (conv [v.toMono] e.terms)) := by
  have hone : N (v.toMono : Mono R).coeff := L.one
  have hvd : (v.toMono : Mono R).degs = Finsupp.single v.id 1 := Var.degs_one v GoNum.one 1
  unfold Var.mul
  rw [hv.good.1.check, he.good.check, Go.ok_bind, Go.ok_bind]
  cases e with
  | k c =>
    have hc : N c := he.nums _ (List.mem_singleton.mpr rfl)
    simp only [Go.pure_eq, Go.ok_bind]
    refine CRes.simp L.toCoefLaws hD hF (r := .mono _) (prod_one L hone (r := kToMono c) hc ⟨?_, ?_⟩
      (goodM_var hv.good.1 hv.good.2.1 (h.left hv.good.2.2) c))
    · exact (add_zero _).symm
    · exact (L.mul_one _ hc).symm.trans (L.mul_comm _ _)
  | var w =>
    have hwd : (w.toMono : Mono R).degs = Finsupp.single w.id 1 := Var.degs_one w GoNum.one 1
    have h11 : (GoNum.one : R) = GoNum.mul GoNum.one GoNum.one := (L.mul_one _ L.one).symm
    simp only [Go.pure_eq, Go.ok_bind]
    split
    · rename_i e
      refine CRes.simp L.toCoefLaws hD hF (r := .mono _) (prod_one L hone (r := w.toMono) L.one ⟨?_, h11⟩
        (goodM_two h hv.good he.good e))
      rw [hvd, hwd, e, ← single_two]
      exact Var.degs_one v GoNum.one 2
    · rename_i e
      refine CRes.simp L.toCoefLaws hD hF (r := .mono _) (prod_one L hone (r := w.toMono) L.one ⟨?_, h11⟩
        (goodM_vw h hv.good he.good e))
      rw [hvd, hwd]
      simp [Mono.degs]
  | mono m =>
    refine (Mono.mul_coef L hD hF h.symm he hv).bind fun s hs => (hs.simp L.toCoefLaws hD hF).mono fun r hr =>
      hr.congr fun d => conv_comm_single (l := [m]) L he.nums he.once hone
  | poly p =>
    exact (Poly.mulVar_coef L hD hF h.symm he hv.good).bind fun s hs => (hs.simp L.toCoefLaws hD hF).mono fun r hr =>
      hr.congr fun d => conv_comm_single L he.nums he.once hone

theorem kMul_coef {c : R} (hc : COpd N P D1 (.k c)) {e : Scalar R} (he : COpd N P D2 e) :
    Go.Ok (kMul c e) (CRes N P D3 (conv [kToMono c] e.terms)) := by
  have hN : N c := hc.nums _ (List.mem_singleton.mpr rfl)
  have hk : COpd N P D1 (.k c) := hc
  unfold kMul
  rw [he.good.check, Go.ok_bind]
  cases e with
  | k d =>
    have hd : N d := he.nums _ (List.mem_singleton.mpr rfl)
    have := prod_one (P := P) (D3 := D3) (m := kToMono c) (r := kToMono d) (p := kToMono (GoNum.mul c d)) L hN hd
      ⟨(add_zero _).symm, rfl⟩ (goodM_const _)
    exact Go.ok_pure ⟨trivial, this.nums, this.once, this.coef⟩
  | var v => exact (Var.mul_coef L hD hF h.symm he hk).mono fun r hr => hr.congr fun d =>
      conv_comm_single (l := [v.toMono]) L he.nums he.once hN
  | mono m => exact (Mono.mul_coef L hD hF h.symm he hk).mono fun r hr => hr.congr fun d =>
      conv_comm_single (l := [m]) L he.nums he.once hN
  | poly p => exact (Poly.mulK_coef L hD hF h.symm he hN).mono fun r hr => hr.congr fun d =>
      conv_comm_single L he.nums he.once hN

/-- `Multiply`: every coefficient is the sum of the products in the order of the terms of the second factor. -/
theorem Scalar.mul_coef {a b : Scalar R} (ha : COpd N P D1 a) (hb : COpd N P D2 b) :
    Go.Ok (a.mul b) (CRes N P D3 (conv a.terms b.terms)) := by
  cases a with
  | k c => exact kMul_coef L hD hF h ha hb
  | var v => exact Var.mul_coef L hD hF h ha hb
  | mono m => exact Mono.mul_coef L hD hF h ha hb
  | poly p =>
    cases b with
    | k c => exact Poly.mulK_coef L hD hF h ha (hb.nums _ (List.mem_singleton.mpr rfl))
    | var v => exact Poly.mulVar_coef L hD hF h ha hb.good
    | mono m => exact Poly.mulMono_coef L hD hF h ha hb.good (hb.one_num L)
    | poly q => exact Poly.mulPoly_coef L hD hF h ha hb

end Mul

end Verif
