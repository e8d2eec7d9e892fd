import Verif.Lemmas.Subst

/-!
# Arithmetic up to rearrangement

The value lemmas of `Verif.Lemmas.Value`, `Mul` and `Subst` once more, for the image of the denotation
under a ring homomorphism that does not distinguish terms which are rearrangements of one another.  The
identity on a rearrangement-free family gives back those lemmas; evaluation at an assignment with a
single nonzero value gives statements without any condition on the terms.
-/

set_option linter.unusedSectionVars false

namespace Verif

open MvPolynomial

variable {R : Type} [Field R] [LinearOrder R] {S : Type} [CommRing S]

/-- `φ` has the same value on terms of `D` that are rearrangements of one another. -/
def Resp (φ : MvPolynomial ℕ R →+* S) (D : Set (ℕ →₀ ℕ)) : Prop :=
  ∀ d ∈ D, ∀ d' ∈ D, Rearr d d' → ∀ c, φ (monomial d c) = φ (monomial d' c)

theorem Resp.mono {φ : MvPolynomial ℕ R →+* S} {D D' : Set (ℕ →₀ ℕ)} (h : Resp φ D) (hD : D' ⊆ D) :
    Resp φ D' := fun d hd d' hd' => h d (hD hd) d' (hD hd')

/-- Well formed, in the family, and with the given image. -/
def GoodIm (φ : MvPolynomial ℕ R →+* S) (P : Var R → Prop) (D : Set (ℕ →₀ ℕ)) (f : S) (s : Scalar R) :
    Prop := Good P D s ∧ φ s.den = f

variable {P : Var R → Prop} {D D1 D2 D3 : Set (ℕ →₀ ℕ)} {φ : MvPolynomial ℕ R →+* S}

/-- Matching monomials have the same image. -/
theorem GoodM.im_eq_of_matches (hD : Resp φ D) {m r : Mono R} (hm : GoodM P D m)
    (hr : GoodM P D r) (h : m.matchesFormOf r = .ok true) (c : R) :
    φ (monomial m.degs c) = φ (monomial r.degs c) := by
  have hre := Mono.matches_rearr hm.canon hr.canon h
  rw [Mono.matches_ok hm.canon.len hr.canon.len] at h
  simp only [Except.ok.injEq, decide_eq_true_eq] at h
  rcases hm.degs with h1 | h1
  · have h2 : r.vars = [] := by
      rw [← List.length_eq_zero_iff, ← h.1, h1]; rfl
    rw [hm.canon.degs_eq_zero.mpr h1, hr.canon.degs_eq_zero.mpr h2]
  · rcases hr.degs with h2 | h2
    · have h3 : m.vars = [] := by
        rw [← List.length_eq_zero_iff, h.1, h2]; rfl
      rw [hm.canon.degs_eq_zero.mpr h3, hr.canon.degs_eq_zero.mpr h2]
    · exact hD _ h1 _ h2 hre c

theorem insertMono_im (hD : Resp φ D) {m : Mono R} (hm : GoodM P D m) (es : List (Mono R))
    (hes : GoodL P D es) {out} (h : insertMono m es = .ok out) :
    φ (lden out) = φ m.den + φ (lden es) := by
  induction es generalizing out with
  | nil =>
    simp only [insertMono, Go.pure_eq, Except.ok.injEq] at h
    subst h; simp
  | cons e es ih =>
    have he := hes e (by simp)
    unfold insertMono at h
    obtain ⟨b, hb⟩ : ∃ b, e.matchesFormOf m = .ok b :=
      ⟨_, Mono.matches_ok he.canon.len hm.canon.len⟩
    rw [hb, Go.ok_bind] at h
    cases b with
    | true =>
      simp only [if_true, Go.pure_eq, Except.ok.injEq, gn_add] at h
      subst h
      rw [lden_cons, lden_cons, Mono.den_add_coeff, map_add, map_add, he.im_eq_of_matches hD hm hb, map_add]
      show φ e.den + φ m.den + _ = _
      ring
    | false =>
      simp only [Bool.false_eq_true, if_false] at h
      obtain ⟨o, ho, h⟩ := Go.bind_eq_ok.mp h
      simp only [Go.pure_eq, Except.ok.injEq] at h
      subst h
      rw [lden_cons, lden_cons, map_add, map_add, ih (fun x hx => hes x (by simp [hx])) ho]
      ring

theorem simplifyFold_im (hD : Resp φ D) (l : List (Mono R)) (c : R) (nc : List (Mono R))
    (hl : GoodL P D l) (hnc : GoodL P D nc) (hv : ∀ m ∈ nc, m.vars ≠ []) {st}
    (h : l.foldlM simplifyStep (c, nc) = .ok st) :
    φ (C st.1) + φ (lden st.2) = φ (lden l) + φ (C c) + φ (lden nc) := by
  induction l generalizing c nc with
  | nil =>
    simp only [List.foldlM_nil, Go.pure_eq, Except.ok.injEq] at h
    subst h; simp
  | cons a l ih =>
    rw [List.foldlM_cons] at h
    obtain ⟨⟨c', nc'⟩, h1, h2⟩ := Go.bind_eq_ok.mp h
    have ha := hl a (by simp)
    have hg : GoodL P D nc' ∧ ∀ m ∈ nc', m.vars ≠ [] := by
      have := simplifyFold_ok (P := P) (D := D) [a] c nc
        (fun m hm => by rw [List.mem_singleton] at hm; exact hm ▸ ha) hnc hv
      simp only [List.foldlM_cons, List.foldlM_nil] at this
      rw [h1, Go.ok_bind, Go.pure_eq] at this
      obtain ⟨x, hx, hx2⟩ := this
      simp only [Except.ok.injEq] at hx
      subst hx
      exact hx2
    rw [ih c' nc' (fun m hm => hl m (by simp [hm])) hg.1 hg.2 h2, lden_cons, map_add]
    unfold simplifyStep at h1
    by_cases hc : a.isConstant
    · rw [if_pos hc] at h1
      simp only [Go.pure_eq, Except.ok.injEq, Prod.mk.injEq, gn_add] at h1
      obtain ⟨rfl, rfl⟩ := h1
      have : a.vars = [] := by simpa [Mono.isConstant] using hc
      rw [Mono.den_of_vars_nil this, map_add, map_add]
      ring
    · rw [if_neg hc] at h1
      obtain ⟨o, ho, h1⟩ := Go.bind_eq_ok.mp h1
      simp only [Go.pure_eq, Except.ok.injEq, Prod.mk.injEq] at h1
      obtain ⟨rfl, rfl⟩ := h1
      rw [insertMono_im hD ha nc hnc ho]
      ring

theorem Poly.simplify_im (hD : Resp φ D) {p q : Poly R} (hne : p.monos ≠ [])
    (h : GoodL P D p.monos) (hq : p.simplify = .ok q) : φ (lden q.monos) = φ (lden p.monos) := by
  obtain ⟨st, hst, h1, -⟩ := simplifyFold_ok p.monos GoNum.zero [] h (by simp [GoodL]) (by simp)
  rw [Poly.simplify_eq (GoodL.check hne h) hst] at hq
  simp only [Except.ok.injEq] at hq
  subst hq
  rw [simplifyList_den, map_add, simplifyFold_im hD p.monos _ [] h (by simp [GoodL]) (by simp) hst]
  simp

theorem Poly.asSimplified_im (hD : Resp φ D) {p : Poly R} (hne : p.monos ≠ [])
    (h : GoodL P D p.monos) : Go.Ok p.asSimplified (GoodIm φ P D (φ (lden p.monos))) :=
  (Poly.asSimplified_ok hne h).mono (fun _ ⟨_, hq, _, hg, hr⟩ =>
    ⟨hr.good hg, by rw [hr.den, Poly.simplify_im hD hne h hq]⟩)

theorem Mono.asSimplified_im {m : Mono R} (hm : GoodM P D m) :
    Go.Ok m.asSimplified (GoodIm φ P D (φ m.den)) := by
  refine (Mono.asSimplified_good hm).and ?_
  intro r hr
  rw [Mono.asSimplified_eq hm.canon, Except.ok.injEq] at hr
  subst hr
  split
  · rename_i h; rw [Mono.den_of_vars_nil h]; rfl
  · split
    · rename_i h
      have : m.coeff = 0 := by simpa using h
      rw [Mono.den_zero this]; simp
    · split
      · rename_i hv _ h1
        rcases m with ⟨c, es, vs⟩
        simp only at hv h1 ⊢
        have hl := hm.canon.len
        rcases vs with _ | ⟨v, _ | ⟨w, vs⟩⟩
        · exact absurd rfl hv
        · have : c = 1 := by simpa using h1.1
          rw [h1.2, den_one_var, this]; simp
        · simp [h1.2] at hl
      · rfl

theorem Scalar.asSimplified_im (hD : Resp φ D) {s : Scalar R} {f} (h : GoodIm φ P D f s) :
    Go.Ok s.asSimplified (GoodIm φ P D f) := by
  obtain ⟨h, rfl⟩ := h
  cases s with
  | k c => exact Go.ok_pure ⟨trivial, rfl⟩
  | var v => exact Go.ok_pure ⟨h, rfl⟩
  | mono m => exact Mono.asSimplified_im h
  | poly p => exact Poly.asSimplified_im hD h.1 h.2

/-! ## Plus -/

theorem Poly.plusK_im (hD : Resp φ D) {p : Poly R} (h : Good P D (.poly p)) (c : R) :
    Go.Ok (p.plusK c) (GoodIm φ P D (φ (lden p.monos + C c))) := by
  rw [Poly.plusK_eq (GoodL.check h.1 h.2)]
  obtain ⟨h1, h2⟩ := plusKList_good h.2 h.1 c
  rw [← plusKList_den]
  exact Poly.asSimplified_im hD h1 h2

theorem Poly.plusVar_im (hD : Resp φ D) {p : Poly R} (h : Good P D (.poly p)) {v : Var R}
    (hv : Good P D (.var v)) : Go.Ok (p.plusVar v) (GoodIm φ P D (φ (lden p.monos + X v.id))) := by
  rw [Poly.plusVar_eq h.1 h.2 hv.1]
  obtain ⟨h1, h2⟩ := plusVarList_good h.2 h.1 hv.1 hv.2.1 hv.2.2
  rw [← plusVarList_den]
  exact Poly.asSimplified_im hD h1 h2

theorem Poly.plusPoly_im (hD : Resp φ D) {p q : Poly R} (hp : Good P D (.poly p))
    (hq : Good P D (.poly q)) :
    Go.Ok (p.plusPoly q) (GoodIm φ P D (φ (lden p.monos + lden q.monos))) := by
  unfold Poly.plusPoly
  rw [GoodL.check hp.1 hp.2, GoodL.check hq.1 hq.2, Go.ok_bind, Go.ok_bind, ← lden_append]
  exact (Poly.asSimplified_im hD (p := ⟨p.monos ++ q.monos⟩) (by simp [hp.1])
    (goodL_append hp.2 hq.2)).bind (fun _ h => Scalar.asSimplified_im hD h)

theorem Poly.plusMono_im (hD : Resp φ D) {p : Poly R} (hp : Good P D (.poly p)) {m : Mono R}
    (hm : GoodM P D m) : Go.Ok (p.plusMono m) (GoodIm φ P D (φ (lden p.monos + m.den))) := by
  unfold Poly.plusMono
  rw [GoodL.check hp.1 hp.2, hm.canon.check, Go.ok_bind, Go.ok_bind]
  have := Poly.plusPoly_im hD hp (Mono.toPoly_good hm)
  simp only [Mono.toPoly, lden_cons, lden_nil, add_zero] at this
  exact this.bind (fun _ h => Scalar.asSimplified_im hD h)

theorem Mono.plus_im (hD : Resp φ D) {m : Mono R} (hm : GoodM P D m) {e : Scalar R}
    (he : Good P D e) : Go.Ok (m.plus e) (GoodIm φ P D (φ (m.den + e.den))) := by
  unfold Mono.plus
  rw [hm.canon.check, he.check, Go.ok_bind, Go.ok_bind]
  cases e with
  | k c =>
    simp only [Go.pure_eq, Go.ok_bind]
    split
    · rename_i hc
      refine Scalar.asSimplified_im hD ⟨trivial, ?_⟩
      have : m.vars = [] := by simpa [Mono.isConstant] using hc
      rw [Mono.den_of_vars_nil this]; simp
    · exact Scalar.asSimplified_im hD ⟨good_pair hm (goodM_const c), by simp⟩
  | var v =>
    simp only [Go.pure_eq, Go.ok_bind]
    rw [Mono.isDegreeOne_ok hm.canon.len he.1, Go.ok_bind]
    split
    · rename_i hc
      rw [decide_eq_true_eq] at hc
      refine Scalar.asSimplified_im (s := .mono _) hD ⟨hm.congr rfl rfl, ?_⟩
      rw [Scalar.den_mono, gn_add, Mono.den_add_coeff]
      congr 1
      rcases m with ⟨c, es, vs⟩
      simp only at hc
      rcases vs with _ | ⟨w, _ | ⟨w', vs⟩⟩
      · simp at hc
      · rw [hc.1, Var.degs_one]
        have : w.id = v.id := by simpa using hc.2
        rw [this]; rfl
      · simp at hc
    · exact Scalar.asSimplified_im hD ⟨good_pair hm (goodM_var he.1 he.2.1 he.2.2 _), by
        simp [den_one_var, Var.toMono]⟩
  | mono r =>
    simp only [Go.pure_eq, Go.ok_bind]
    obtain ⟨b, hb⟩ : ∃ b, m.matchesFormOf r = .ok b :=
      ⟨_, Mono.matches_ok hm.canon.len he.canon.len⟩
    rw [hb, Go.ok_bind]
    cases b with
    | true =>
      refine Scalar.asSimplified_im (s := .mono _) hD ⟨hm.congr rfl rfl, ?_⟩
      rw [Scalar.den_mono, gn_add, Mono.den_add_coeff, map_add, map_add,
        GoodM.im_eq_of_matches (P := P) hD hm he hb]
      rfl
    | false => exact Scalar.asSimplified_im hD ⟨good_pair hm he, by simp⟩
  | poly p =>
    refine (Poly.plusMono_im hD he hm).bind (fun _ h => ?_)
    rw [add_comm] at h
    exact Scalar.asSimplified_im hD h

theorem Poly.plus_im (hD : Resp φ D) {p : Poly R} (hp : Good P D (.poly p)) {e : Scalar R}
    (he : Good P D e) : Go.Ok (p.plus e) (GoodIm φ P D (φ (lden p.monos + e.den))) := by
  cases e with
  | k c => exact Poly.plusK_im hD hp c
  | var v => exact Poly.plusVar_im hD hp he
  | mono m => exact Poly.plusMono_im hD hp he
  | poly q => exact Poly.plusPoly_im hD hp he

theorem Var.plus_im (hD : Resp φ D) {v : Var R} (hv : Good P D (.var v)) {e : Scalar R}
    (he : Good P D e) : Go.Ok (v.plus e) (GoodIm φ P D (φ (X v.id + e.den))) := by
  have gv : GoodM P D v.toMono := goodM_var hv.1 hv.2.1 hv.2.2 _
  unfold Var.plus
  rw [hv.1.check, Go.ok_bind]
  cases e with
  | k c =>
    simp only [Go.pure_eq, Go.ok_bind]
    exact Scalar.asSimplified_im hD ⟨good_pair gv (goodM_const c), by simp⟩
  | var w =>
    simp only [Go.pure_eq, Go.ok_bind]
    split
    · rename_i h
      refine Scalar.asSimplified_im (s := .mono _) hD ⟨goodM_var hv.1 hv.2.1 hv.2.2 _, ?_⟩
      rw [Scalar.den_mono, den_one_var, Scalar.den_var, ← h, gn_ofInt, ← two_mul]
      rw [show ((2 : Int) : R) = 2 by norm_num, map_ofNat]
    · exact Scalar.asSimplified_im hD
        ⟨good_pair gv (goodM_var he.1 he.2.1 he.2.2 _), by simp [den_one_var, Var.toMono]⟩
  | mono m =>
    refine (Mono.plus_im hD he hv).bind (fun _ h => ?_)
    rw [add_comm] at h
    exact Scalar.asSimplified_im hD h
  | poly p =>
    refine (Poly.plusVar_im hD he hv).bind (fun _ h => ?_)
    rw [add_comm] at h
    exact Scalar.asSimplified_im hD h

theorem kPlus_im (hD : Resp φ D) (c : R) {e : Scalar R} (he : Good P D e) :
    Go.Ok (kPlus c e) (GoodIm φ P D (φ (C c + e.den))) := by
  unfold kPlus
  rw [he.check, Go.ok_bind]
  cases e with
  | k d => exact Go.ok_pure ⟨trivial, by simp⟩
  | var v => rw [add_comm]; exact Var.plus_im hD he (e := .k c) trivial
  | mono m => rw [add_comm]; exact Mono.plus_im hD he (e := .k c) trivial
  | poly p => rw [add_comm]; exact Poly.plusK_im hD he c

/-- `Plus` adds the denotations. -/
theorem Scalar.plus_im (hD : Resp φ D) {a b : Scalar R} (ha : Good P D a) (hb : Good P D b) :
    Go.Ok (a.plus b) (GoodIm φ P D (φ (a.den + b.den))) := by
  cases a with
  | k c => exact kPlus_im hD c hb
  | var v => exact Var.plus_im hD ha hb
  | mono m => exact Mono.plus_im hD ha hb
  | poly p => exact Poly.plus_im hD ha hb

/-! ## Times -/

theorem Poly.mulK_im (hD : Resp φ D) {p : Poly R} (hp : Good P D (.poly p)) (c : R) :
    Go.Ok (p.mulK c) (GoodIm φ P D (φ (lden p.monos * C c))) := by
  unfold Poly.mulK
  rw [GoodL.check hp.1 hp.2, Go.ok_bind, ← lden_map (fun m _ => Mono.mulK_den m c)]
  refine Poly.asSimplified_im (p := ⟨_⟩) hD (by simpa using hp.1) ?_
  intro m hm
  obtain ⟨x, hx, rfl⟩ := List.mem_map.mp hm
  exact Mono.mulK_good (hp.2 x hx) c

theorem Poly.mulVar_im (h : ProdIn D1 D2 D3) (hD : Resp φ D3) {p : Poly R}
    (hp : Good P D1 (.poly p)) {v : Var R} (hv : Good P D2 (.var v)) :
    Go.Ok (p.mulVar v) (GoodIm φ P D3 (φ (lden p.monos * X v.id))) := by
  unfold Poly.mulVar
  rw [GoodL.check hp.1 hp.2, hv.1.check, Go.ok_bind, Go.ok_bind,
    ← lden_map (fun m hm => Mono.mulVar_den (hp.2 m hm).canon hv.1)]
  refine Poly.asSimplified_im (p := ⟨_⟩) hD (by simpa using hp.1) ?_
  intro m hm
  obtain ⟨x, hx, rfl⟩ := List.mem_map.mp hm
  exact Mono.mulVar_good h (hp.2 x hx) hv

theorem Poly.mulMono_im (h : ProdIn D1 D2 D3) (hD : Resp φ D3) {p : Poly R}
    (hp : Good P D1 (.poly p)) {r : Mono R} (hr : GoodM P D2 r) :
    Go.Ok (p.mulMono r) (GoodIm φ P D3 (φ (lden p.monos * r.den))) := by
  unfold Poly.mulMono
  rw [GoodL.check hp.1 hp.2, hr.canon.check, Go.ok_bind, Go.ok_bind]
  refine (Go.mapM_ok _ _ p.monos (fun m hm => Mono.mulMono_good h (hp.2 m hm) hr)).bind ?_
  intro ms hms
  have : lden ms = lden p.monos * r.den :=
    lden_forall₂ (hms.imp (fun _ _ hh => den_mul_of_degs hh.2.1 hh.2.2))
  rw [← this]
  exact Poly.asSimplified_im (p := ⟨ms⟩) hD (forall₂_ne hms hp.1)
    (forall₂_good hms (fun _ _ h => h.1))

theorem Poly.mulPoly_im (h : ProdIn D1 D2 D3) (hD : Resp φ D3) {p q : Poly R}
    (hp : Good P D1 (.poly p)) (hq : Good P D2 (.poly q)) :
    Go.Ok (p.mulPoly q) (GoodIm φ P D3 (φ (lden p.monos * lden q.monos))) := by
  unfold Poly.mulPoly
  rw [GoodL.check hp.1 hp.2, GoodL.check hq.1 hq.2, Go.ok_bind, Go.ok_bind]
  refine (Go.foldlM_ok' _ (fun pre s => GoodIm φ P D3 (φ (lden p.monos * lden pre)) s) _ (Scalar.k GoNum.zero)
    ⟨trivial, by simp⟩ ?_).bind (fun _ h => Scalar.asSimplified_im hD h)
  rintro pre r acc ⟨post, hpost⟩ ⟨hacc, hden⟩
  have hr : r ∈ q.monos := by rw [hpost]; simp
  refine (Poly.mulMono_im h hD hp (hq.2 r hr)).bind (fun s hs => ?_)
  refine (Scalar.plus_im hD hacc hs.1).mono (fun t ht => ⟨ht.1, ?_⟩)
  rw [ht.2, map_add, hden, hs.2, lden_append, lden_cons, lden_nil, ← map_add]
  congr 1
  ring

theorem Mono.mul_im (h : ProdIn D1 D2 D3) (hD : Resp φ D3) {m : Mono R} (hm : GoodM P D1 m)
    {e : Scalar R} (he : Good P D2 e) : Go.Ok (m.mul e) (GoodIm φ P D3 (φ (m.den * e.den))) := by
  unfold Mono.mul
  rw [hm.canon.check, he.check, Go.ok_bind, Go.ok_bind]
  cases e with
  | k c =>
    exact Go.ok_pure (P := GoodIm φ P D3 _) (a := Scalar.mono (m.mulK c))
      ⟨(Mono.mulK_good hm c).weaken (fun _ h => h) h.left, congrArg φ (Mono.mulK_den m c)⟩
  | var v =>
    exact Go.ok_pure (P := GoodIm φ P D3 _) (a := Scalar.mono (m.mulVar v))
      ⟨Mono.mulVar_good h hm he, congrArg φ (Mono.mulVar_den hm.canon he.1)⟩
  | mono r =>
    exact (Mono.mulMono_good h hm he).bind
      (fun _ h => Go.ok_pure ⟨h.1, congrArg φ (den_mul_of_degs h.2.1 h.2.2)⟩)
  | poly p =>
    rw [mul_comm]
    exact Poly.mulMono_im h.symm hD he hm

theorem Poly.mul_im (h : ProdIn D1 D2 D3) (hD : Resp φ D3) {p : Poly R}
    (hp : Good P D1 (.poly p)) {e : Scalar R} (he : Good P D2 e) :
    Go.Ok (p.mul e) (GoodIm φ P D3 (φ (lden p.monos * e.den))) := by
  cases e with
  | k c => exact Poly.mulK_im hD (hp.weaken (fun _ h => h) h.left) c
  | var v => exact Poly.mulVar_im h hD hp he
  | mono m => exact Poly.mulMono_im h hD hp he
  | poly q => exact Poly.mulPoly_im h hD hp he

theorem Var.mul_im (h : ProdIn D1 D2 D3) (hD : Resp φ D3) {v : Var R}
    (hv : Good P D1 (.var v)) {e : Scalar R} (he : Good P D2 e) :
    Go.Ok (v.mul e) (GoodIm φ P D3 (φ (X v.id * e.den))) := by
  unfold Var.mul
  rw [hv.1.check, he.check, Go.ok_bind, Go.ok_bind]
  cases e with
  | k c =>
    simp only [Go.pure_eq, Go.ok_bind]
    refine Scalar.asSimplified_im hD (s := .mono _)
      ⟨goodM_var hv.1 hv.2.1 (h.left hv.2.2) c, ?_⟩
    rw [Scalar.den_mono, den_one_var, mul_comm]; rfl
  | var w =>
    simp only [Go.pure_eq, Go.ok_bind]
    split
    · rename_i e
      refine Scalar.asSimplified_im hD (s := .mono _) ⟨goodM_two h hv he e, ?_⟩
      rw [Scalar.den_mono, Mono.den_eq_prod]
      simp [e, pow_two]
    · rename_i e
      refine Scalar.asSimplified_im hD (s := .mono _) ⟨goodM_vw h hv he e, ?_⟩
      rw [Scalar.den_mono, Mono.den_eq_prod]
      simp
  | mono m =>
    refine (Mono.mul_im h.symm hD he hv).bind (fun _ h => ?_)
    rw [mul_comm] at h
    exact Scalar.asSimplified_im hD h
  | poly p =>
    refine (Poly.mulVar_im h.symm hD he hv).bind (fun _ h => ?_)
    rw [mul_comm] at h
    exact Scalar.asSimplified_im hD h

theorem kMul_im (hD : Resp φ D) (c : R) {e : Scalar R} (he : Good P D e) :
    Go.Ok (kMul c e) (GoodIm φ P D (φ (C c * e.den))) := by
  unfold kMul
  rw [he.check, Go.ok_bind]
  cases e with
  | k d => exact Go.ok_pure ⟨trivial, by simp⟩
  | var v => rw [mul_comm]; exact Var.mul_im (prodIn_const D) hD he (e := .k c) trivial
  | mono m => rw [mul_comm]; exact Mono.mul_im (prodIn_const D) hD he (e := .k c) trivial
  | poly p => rw [mul_comm]; exact Poly.mulK_im hD he c

/-- `Multiply` multiplies the denotations. -/
theorem Scalar.mul_im (h : ProdIn D1 D2 D3) (hD : Resp φ D3) {a b : Scalar R}
    (ha : Good P D1 a) (hb : Good P D2 b) : Go.Ok (a.mul b) (GoodIm φ P D3 (φ (a.den * b.den))) := by
  cases a with
  | k c => exact kMul_im hD c (hb.weaken (fun _ h => h) h.right)
  | var v => exact Var.mul_im h hD ha hb
  | mono m => exact Mono.mul_im h hD ha hb
  | poly p => exact Poly.mul_im h hD ha hb

theorem Scalar.mulF64_im (hD : Resp φ D) {a : Scalar R} (ha : Good P D a) (c : R) :
    Go.Ok (a.mulF64 c) (GoodIm φ P D (φ (a.den * C c))) := by
  cases a with
  | k d => exact kMul_im hD d (e := .k c) trivial
  | mono m => exact Mono.mul_im (prodIn_const D) hD ha (e := .k c) trivial
  | var v =>
    exact (Scalar.mul_im (a := .var v) (b := .k c) (prodIn_const D) hD ha trivial).bind
      (fun _ h => Scalar.asSimplified_im hD h)
  | poly p =>
    exact (Scalar.mul_im (a := .poly p) (b := .k c) (prodIn_const D) hD ha trivial).bind
      (fun _ h => Scalar.asSimplified_im hD h)

theorem Scalar.plusF64_im (hD : Resp φ D) {a : Scalar R} (ha : Good P D a) (c : R) :
    Go.Ok (a.plusF64 c) (GoodIm φ P D (φ (a.den + C c))) := by
  cases a with
  | k d => exact Scalar.plus_im hD (a := .k d) (b := .k c) trivial trivial
  | var v =>
    exact (Scalar.plus_im hD (a := .var v) (b := .k c) ha trivial).bind
      (fun _ h => Scalar.asSimplified_im hD h)
  | mono m =>
    exact (Scalar.plus_im hD (a := .mono m) (b := .k c) ha trivial).bind
      (fun _ h => Scalar.asSimplified_im hD h)
  | poly p =>
    exact (Scalar.plus_im hD (a := .poly p) (b := .k c) ha trivial).bind
      (fun _ h => Scalar.asSimplified_im hD h)

theorem Scalar.minus_im (hD : Resp φ D) {a b : Scalar R} (ha : Good P D a) (hb : Good P D b) :
    Go.Ok (a.minus b) (GoodIm φ P D (φ (a.den - b.den))) := by
  unfold Scalar.minus
  rw [ha.check, hb.check, Go.ok_bind, Go.ok_bind]
  refine (Scalar.mulF64_im hD hb negOne).bind (fun s hs => ?_)
  refine (Scalar.plus_im hD ha hs.1).mono (fun t ht => ⟨ht.1, ?_⟩)
  rw [ht.2, map_add, hs.2]
  unfold negOne
  simp [sub_eq_add_neg]

theorem powLoop_im {base : Scalar R} (hb : Good P D base) (n k : ℕ) {acc : Scalar R}
    (hD : Resp φ {d | NSum D (n + k) d}) (ha : Good P {d | NSum D k d} acc) :
    Go.Ok (powLoop base n acc)
      (GoodIm φ P {d | NSum D (n + k) d} (φ (acc.den * base.den ^ n))) := by
  induction n generalizing k acc with
  | zero =>
    rw [Nat.zero_add]
    exact Go.ok_pure ⟨ha, by simp⟩
  | succ n ih =>
    unfold powLoop
    have e : n + 1 + k = n + (k + 1) := by omega
    rw [e] at hD ⊢
    have hD' : Resp φ {d | NSum D (k + 1) d} := by
      intro d hd d' hd'
      have up : ∀ j d, NSum D (k + 1) d → NSum D (j + (k + 1)) d := by
        intro j d hd
        induction j with
        | zero => simpa using hd
        | succ j ih => rw [show j + 1 + (k + 1) = j + (k + 1) + 1 by omega]; exact ih.succ
      exact hD d (up n d hd) d' (up n d' hd')
    refine (Scalar.mul_im (prodIn_nsum D k) hD' ha hb).bind (fun s hs => ?_)
    have := ih (k + 1) hD hs.1
    rwa [map_mul, hs.2, ← map_mul, mul_assoc, ← pow_succ'] at this

theorem Scalar.power_im {base : Scalar R} (hb : Good P D base) {n : Int} (hn : 0 ≤ n)
    (hD : Resp φ {d | NSum D n.toNat d}) :
    Go.Ok (base.power n) (GoodIm φ P {d | NSum D n.toNat d} (φ (base.den ^ n.toNat))) := by
  unfold Scalar.power
  rw [hb.check, Go.ok_bind]
  have : ¬ n < 0 := by omega
  rw [if_neg this]
  have := powLoop_im hb n.toNat 0 (acc := .k GoNum.one) hD trivial
  simpa using this


/-! ## Substitution -/

theorem subFold_im {f : Var R → Go (Scalar R)} {T : ℕ → Set (ℕ →₀ ℕ)} {θ : ℕ → S} {m : Mono R}
    (hm : m.Canon) (hf : ∀ v ∈ m.vars, Go.Ok (f v) (GoodIm φ P (T v.id) (θ v.id)))
    (hD : Resp φ (PSet T (m.vars.zip m.exps))) (c : R) :
    Go.Ok ((m.vars.zip m.exps).foldlM (subStep f) (.k c))
      (GoodIm φ P (PSet T (m.vars.zip m.exps))
        (φ (C c) * ((m.vars.zip m.exps).map (fun ve => θ ve.1.id ^ ve.2.toNat)).prod)) := by
  apply Go.foldlM_ok' (subStep f) (fun pre => GoodIm φ P (PSet T pre)
    (φ (C c) * (pre.map (fun ve => θ ve.1.id ^ ve.2.toNat)).prod))
  · exact ⟨trivial, by simp⟩
  · rintro pre ⟨v, e⟩ acc ⟨post, hpost⟩ ⟨ga, da⟩
    have hve : (v, e) ∈ m.vars.zip m.exps := by rw [hpost]; simp
    have he : 0 ≤ e := (hm.pos e (List.of_mem_zip hve).2).le
    have hD' : Resp φ (PSet T (pre ++ [(v, e)])) := by
      refine hD.mono ?_
      rw [hpost, show pre ++ (v, e) :: post = (pre ++ [(v, e)]) ++ post by simp]
      exact PSet_left _ _ _
    unfold subStep
    refine (hf v (List.of_mem_zip hve).1).bind ?_
    rintro s ⟨gs, ds⟩
    have hN : Resp φ {d | NSum (T v.id) e.toNat d} :=
      hD'.mono ((nsum_PSet T (v, e)).trans (PSet_right _ _ _))
    refine (Scalar.power_im gs he hN).bind ?_
    rintro pw ⟨gp, dp⟩
    refine (Scalar.mul_im (prodIn_PSet T pre (v, e)) hD' ga gp).mono ?_
    rintro r ⟨gr, dr⟩
    refine ⟨gr, ?_⟩
    rw [dr, map_mul, da, dp, map_pow, ds, List.map_append, List.prod_append]
    simp [mul_assoc]

/-- The image of a monomial in which the variables have been replaced. -/
noncomputable def imMono (φ : MvPolynomial ℕ R →+* S) (θ : ℕ → S) (m : Mono R) : S :=
  φ (C m.coeff) * ((m.vars.zip m.exps).map (fun ve => θ ve.1.id ^ ve.2.toNat)).prod

theorem imMono_eq (φ : MvPolynomial ℕ R →+* S) (θ : ℕ → S) (m : Mono R) :
    imMono φ θ m = eval₂Hom (φ.comp C) θ m.den := by
  unfold imMono
  rw [Mono.den_eq_prod, map_mul, map_list_prod, List.map_map, coe_eval₂Hom, eval₂_C]
  congr 3
  funext ve
  simp

/-- Sum of the images of the terms. -/
theorem sumFold_im (hD : Resp φ D) {g : Mono R → Go (Scalar R)} {θ : ℕ → S} {l : List (Mono R)}
    (hg : ∀ m ∈ l, Go.Ok (g m) (GoodIm φ P D (eval₂Hom (φ.comp C) θ m.den))) :
    Go.Ok (l.foldlM (fun acc m => do
      let t ← g m
      acc.plus t) (Scalar.k GoNum.zero)) (GoodIm φ P D (eval₂Hom (φ.comp C) θ (lden l))) := by
  apply Go.foldlM_ok' _ (fun pre => GoodIm φ P D (eval₂Hom (φ.comp C) θ (lden pre)))
  · exact ⟨trivial, by simp⟩
  · rintro pre m acc ⟨post, hpost⟩ ⟨ga, da⟩
    refine (hg m (by rw [hpost]; simp)).bind ?_
    rintro t ⟨gt, dt⟩
    refine (Scalar.plus_im hD ga gt).mono ?_
    rintro r ⟨gr, dr⟩
    exact ⟨gr, by rw [dr, map_add, da, dt, lden_append, map_add, lden_cons, lden_nil, add_zero]⟩

end Verif
