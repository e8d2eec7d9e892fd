import Verif.Lemmas.RoundSimp
import Verif.Lemmas.Mul

/-!
# Rounding errors of `Plus` and `Minus`
-/

set_option linter.unusedSectionVars false

namespace Verif

open MvPolynomial

variable {R K : Type} [GoNum R] [Field K] [LinearOrder K] [IsStrictOrderedRing K]
variable {F : RoundModel R K}
variable {P : Var R → Prop} {D : Set (ℕ →₀ ℕ)}

theorem modify_split {α : Type} {l : List α} {i : ℕ} {x : α} (h : l[i]? = some x) (f : α → α) :
    ∃ l1 l2, l = l1 ++ x :: l2 ∧ l.modify i f = l1 ++ f x :: l2 := by
  induction l generalizing i with
  | nil => simp at h
  | cons a l ih =>
    cases i with
    | zero =>
      simp only [List.getElem?_cons_zero, Option.some.injEq] at h
      subst h
      exact ⟨[], l, rfl, by simp⟩
    | succ i =>
      obtain ⟨l1, l2, rfl, h2⟩ := ih (by simpa using h)
      exact ⟨a :: l1, l2, rfl, by rw [List.modify_succ_cons, h2]; rfl⟩

theorem findIdx_get {α : Type} {l : List α} {p : α → Bool} {i : ℕ} (h : l.findIdx? p = some i) :
    ∃ x, l[i]? = some x ∧ p x = true := by
  rw [List.findIdx?_eq_some_iff_getElem] at h
  obtain ⟨h1, h2, -⟩ := h
  exact ⟨l[i], by simp [h1], h2⟩

theorem KeysLe.append {j k : ℕ} {l l' : List (Mono R)} (h : KeysLe j l) (h' : KeysLe k l') :
    KeysLe (j + k) (l ++ l') := by
  intro x
  rw [List.map_append, List.count_append]
  exact add_le_add (h x) (h' x)

theorem KeysLe.pos {k : ℕ} {l : List (Mono R)} (h : KeysLe k l) (hne : l ≠ []) : 1 ≤ k := by
  cases l with
  | nil => exact absurd rfl hne
  | cons a l =>
    have := h a.rkey
    rw [List.map_cons, List.count_cons_self] at this
    omega

theorem KeysLe.mono {j k : ℕ} {l : List (Mono R)} (h : KeysLe j l) (hk : j ≤ k) : KeysLe k l :=
  fun x => (h x).trans hk

theorem Scalar.terms_ne {s : Scalar R} (h : Good P D s) : s.terms ≠ [] := by
  cases s with
  | k c => simp [Scalar.terms]
  | var v => simp [Scalar.terms]
  | mono m => simp [Scalar.terms]
  | poly p => exact h.1

theorem Good.terms {s : Scalar R} (h : Good P D s) : GoodL P D s.terms := by
  cases s with
  | k c => intro m hm; rw [List.mem_singleton.mp hm]; exact goodM_const c
  | var v => intro m hm; rw [List.mem_singleton.mp hm]; exact goodM_var h.1 h.2.1 h.2.2 _
  | mono m => intro r hr; rw [List.mem_singleton.mp hr]; exact h
  | poly p => exact h.2

/-- The coefficients are finite. -/
def FinL (F : RoundModel R K) (l : List (Mono R)) : Prop := ∀ m ∈ l, F.Fin m.coeff

theorem FinL.append {l l' : List (Mono R)} (h : FinL F l) (h' : FinL F l') : FinL F (l ++ l') := by
  intro m hm
  rcases List.mem_append.mp hm with hm | hm
  · exact h m hm
  · exact h' m hm

/-- The simplified concatenation. -/
theorem append_appr (hD : RearrFree D) {ka kb : ℕ} {l l' : List (Mono R)} (hne : l ≠ []) (hne' : l' ≠ [])
    (hf : FinL F l) (hf' : FinL F l') (hg : GoodL P D l) (hg' : GoodL P D l') (hk : KeysLe ka l)
    (hk' : KeysLe kb l') (hG : ∀ d, F.Small ((1 + F.u) ^ (ka + kb - 1) * coeff d (aden F l + aden F l'))) :
    Go.Ok (Poly.asSimplified ⟨l ++ l'⟩)
      (Res F P D (ka + kb - 1) (vden F l + vden F l') (aden F l + aden F l')) := by
  have h1 := hk.pos hne
  have h2 := hk'.pos hne'
  have := Poly.asSimplified_self (F := F) (P := P) hD (k := ka + kb - 1) (l := l ++ l') (by simp [hne])
    (hf.append hf') (goodL_append hg hg') ((hk.append hk').mono (by omega)) (by rwa [aden_append])
  rwa [vden_append, aden_append] at this

/-- One coefficient is added to, then everything is simplified. -/
theorem modify_appr (hD : RearrFree D) {k : ℕ} {l : List (Mono R)} (hf : FinL F l)
    (hg : GoodL P D l) (hk : KeysLe k l) {i : ℕ} {x : Mono R} (hx : l[i]? = some x) {c : R} (hc : F.Fin c)
    (hG : ∀ d, F.Small ((1 + F.u) ^ k * coeff d (aden F l + monomial x.degs |F.val c|))) :
    Go.Ok (Poly.asSimplified ⟨l.modify i (fun m => { m with coeff := GoNum.add m.coeff c })⟩)
      (Res F P D k (vden F l + monomial x.degs (F.val c)) (aden F l + monomial x.degs |F.val c|)) := by
  obtain ⟨l1, l2, rfl, h2⟩ := modify_split hx (fun m => { m with coeff := GoNum.add m.coeff c })
  have hk1 : 1 ≤ k := hk.pos (by simp)
  have hxf : F.Fin x.coeff := hf x (by simp)
  have hxg : GoodM P D x := hg x (by simp)
  have hnear : Near F (0 + 1) (GoNum.add x.coeff c) (F.val x.coeff + F.val c) (|F.val x.coeff| + |F.val c|) := by
    refine (near_self hxf).add (near_self hc) (small_le (Nat.zero_le k) (by positivity) ?_ (hG x.degs))
    rw [aden_append, aden_cons, coeff_add, coeff_add, coeff_add, aterm, coeff_monomial, coeff_monomial,
      if_pos rfl, if_pos rfl]
    have e1 := aden_nonneg (F := F) l1 x.degs
    have e2 := aden_nonneg (F := F) l2 x.degs
    linarith
  have hgs : gsum (l1.map (selfAnn F) ++ ⟨{ x with coeff := GoNum.add x.coeff c }, 1,
      F.val x.coeff + F.val c, |F.val x.coeff| + |F.val c|⟩ :: l2.map (selfAnn F)) =
      aden F (l1 ++ x :: l2) + monomial x.degs |F.val c| := by
    rw [gsum_append, gsum_cons, gsum_self, gsum_self, aden_append, aden_cons, aterm]
    show _ + ((monomial x.degs) _ + _) = _
    rw [map_add]; ring
  have hfs : fsum (l1.map (selfAnn F) ++ ⟨{ x with coeff := GoNum.add x.coeff c }, 1,
      F.val x.coeff + F.val c, |F.val x.coeff| + |F.val c|⟩ :: l2.map (selfAnn F)) =
      vden F (l1 ++ x :: l2) + monomial x.degs (F.val c) := by
    rw [fsum_append, fsum_cons, fsum_self, fsum_self, vden_append, vden_cons, vterm]
    show _ + ((monomial x.degs) _ + _) = _
    rw [map_add]; ring
  have := Poly.asSimplified_appr (F := F) (P := P) hD (k := k - 1) (n0 := 1)
    (B := l1.map (selfAnn F) ++ ⟨{ x with coeff := GoNum.add x.coeff c }, 1,
      F.val x.coeff + F.val c, |F.val x.coeff| + |F.val c|⟩ :: l2.map (selfAnn F)) (by simp)
    (by
      intro a ha
      rcases List.mem_append.mp ha with ha | ha
      · exact selfAnn_ok (fun m hm => hf m (by simp [hm])) a ha
      · rcases List.mem_cons.mp ha with rfl | ha
        · exact hnear
        · exact selfAnn_ok (fun m hm => hf m (by simp [hm])) a ha)
    (by
      intro a ha
      rcases List.mem_append.mp ha with ha | ha
      · obtain ⟨m, hm, rfl⟩ := List.mem_map.mp ha; exact hg m (by simp [hm])
      · rcases List.mem_cons.mp ha with rfl | ha
        · exact hxg.congr rfl rfl
        · obtain ⟨m, hm, rfl⟩ := List.mem_map.mp ha; exact hg m (by simp [hm]))
    (by
      intro a ha
      rcases List.mem_append.mp ha with ha | ha
      · obtain ⟨m, hm, rfl⟩ := List.mem_map.mp ha; exact Nat.zero_le _
      · rcases List.mem_cons.mp ha with rfl | ha
        · exact le_refl _
        · obtain ⟨m, hm, rfl⟩ := List.mem_map.mp ha; exact Nat.zero_le _)
    (by
      intro y
      have := hk y
      rw [List.map_append, List.map_cons] at this
      rw [List.map_append, List.map_cons, map_selfAnn, map_selfAnn, List.map_append, List.map_cons,
        Nat.sub_add_cancel hk1]
      exact this)
    (by rw [hgs, Nat.add_sub_cancel' hk1]; exact hG)
  rw [hgs, hfs, Nat.add_sub_cancel' hk1, List.map_append, List.map_cons, map_selfAnn, map_selfAnn] at this
  rw [h2]
  exact this

theorem vden_single (m : Mono R) : vden F [m] = monomial m.degs (F.val m.coeff) := by simp [vterm]
theorem aden_single (m : Mono R) : aden F [m] = monomial m.degs |F.val m.coeff| := by simp [aterm]

/-- The operands of an operation: well formed, finite coefficients, at most `k` terms alike. -/
structure Opd (F : RoundModel R K) (P : Var R → Prop) (D : Set (ℕ →₀ ℕ)) (k : ℕ) (s : Scalar R) : Prop where
  good : Good P D s
  fin : FinL F s.terms
  keys : KeysLe k s.terms

theorem Res.opd {n : ℕ} {f g : MvPolynomial ℕ K} {r : Scalar R} (h : Res F P D n f g r) : Opd F P D 1 r :=
  ⟨h.good, h.appr.fin, h.tidy.keysLe⟩

theorem Opd.pos {k : ℕ} {s : Scalar R} (h : Opd F P D k s) : 1 ≤ k := h.keys.pos (Scalar.terms_ne h.good)

theorem opd_k {c : R} (h : F.Fin c) : Opd F P D 1 (.k c) :=
  ⟨trivial, by intro m hm; rw [List.mem_singleton.mp hm]; exact h, (tidy_single _).keysLe⟩

theorem opd_mono {m : Mono R} (hg : GoodM P D m) (h : F.Fin m.coeff) : Opd F P D 1 (.mono m) :=
  ⟨hg, by intro r hr; rw [List.mem_singleton.mp hr]; exact h, (tidy_single _).keysLe⟩

noncomputable abbrev vd (F : RoundModel R K) (s : Scalar R) : MvPolynomial ℕ K := vden F s.terms
noncomputable abbrev ad (F : RoundModel R K) (s : Scalar R) : MvPolynomial ℕ K := aden F s.terms

/-- No overflow within `n` roundings of numbers bounded by `g`. -/
def Fits (F : RoundModel R K) (n : ℕ) (g : MvPolynomial ℕ K) : Prop :=
  ∀ d, F.Small ((1 + F.u) ^ n * coeff d g)

theorem Fits.comm {n : ℕ} {g h : MvPolynomial ℕ K} (hG : Fits F n (g + h)) : Fits F n (h + g) := by
  rwa [add_comm]

section Plus

variable {ka kb : ℕ}

theorem Poly.plusPoly_appr (hD : RearrFree D) {p q : Poly R} (hp : Opd F P D ka (.poly p))
    (hq : Opd F P D kb (.poly q)) (hG : Fits F (ka + kb - 1) (ad F (.poly p) + ad F (.poly q))) :
    Go.Ok (p.plusPoly q) (Res F P D (ka + kb - 1) (vd F (.poly p) + vd F (.poly q))
      (ad F (.poly p) + ad F (.poly q))) := by
  unfold Poly.plusPoly
  rw [GoodL.check hp.good.1 hp.good.2, GoodL.check hq.good.1 hq.good.2, Go.ok_bind, Go.ok_bind]
  exact (append_appr hD hp.good.1 hq.good.1 hp.fin hq.fin hp.good.2 hq.good.2 hp.keys hq.keys hG).bind
    fun r hr => hr.simp hD hG

theorem Poly.plusMono_appr (hD : RearrFree D) {p : Poly R} {m : Mono R} (hp : Opd F P D ka (.poly p))
    (hm : Opd F P D kb (.mono m)) (hG : Fits F (ka + kb - 1) (ad F (.poly p) + ad F (.mono m))) :
    Go.Ok (p.plusMono m) (Res F P D (ka + kb - 1) (vd F (.poly p) + vd F (.mono m))
      (ad F (.poly p) + ad F (.mono m))) := by
  unfold Poly.plusMono
  have hgm : GoodM P D m := hm.good
  rw [GoodL.check hp.good.1 hp.good.2, hgm.canon.check, Go.ok_bind, Go.ok_bind]
  exact (Poly.plusPoly_appr hD (q := m.toPoly) hp ⟨Mono.toPoly_good hgm, hm.fin, hm.keys⟩ hG).bind
    fun r hr => hr.simp hD hG

theorem Poly.plusK_appr (hD : RearrFree D) {p : Poly R} {c : R} (hp : Opd F P D ka (.poly p))
    (hc : Opd F P D kb (.k c)) (hG : Fits F (ka + kb - 1) (ad F (.poly p) + ad F (.k c))) :
    Go.Ok (p.plusK c) (Res F P D (ka + kb - 1) (vd F (.poly p) + vd F (.k c))
      (ad F (.poly p) + ad F (.k c))) := by
  have hkb := hc.pos
  have hka := hp.pos
  rw [Poly.plusK_eq (GoodL.check hp.good.1 hp.good.2)]
  unfold plusKList
  split
  · exact append_appr hD (l' := [kToMono c]) hp.good.1 (by simp) hp.fin hc.fin hp.good.2 hc.good.terms hp.keys
      hc.keys hG
  · rename_i i hi
    obtain ⟨x, hx, hx2⟩ := findIdx_get hi
    have hxg : GoodM P D x := hp.good.2 x (List.mem_of_getElem? hx)
    have hdeg : x.degs = (kToMono c).degs := by
      rw [hxg.canon.degs_eq_zero.mpr (by simpa [Mono.isConstant] using hx2)]; rfl
    have e1 : vd F (.k c) = monomial x.degs (F.val c) := by rw [hdeg]; exact vden_single _
    have e2 : ad F (.k c) = monomial x.degs |F.val c| := by rw [hdeg]; exact aden_single _
    rw [e1, e2]
    rw [e2] at hG
    refine (modify_appr hD hp.fin hp.good.2 hp.keys hx (hc.fin _ (List.mem_singleton.mpr rfl)) fun d => ?_).mono
      fun r hr => hr.weaken (by omega)
    refine small_le (by omega) ?_ (le_refl _) (hG d)
    rw [coeff_add]
    exact add_nonneg (aden_nonneg _ d) (coeff_monomial_nonneg (abs_nonneg _))

theorem degs_of_linear {m : Mono R} {v : Var R} (he : m.exps = [1]) (hv : m.vars.map (·.id) = [v.id]) :
    m.degs = v.toMono.degs := by
  rcases m with ⟨c, es, vs⟩
  simp only at he hv
  subst he
  rcases vs with _ | ⟨w, _ | ⟨w', vs⟩⟩
  · simp at hv
  · simp only [List.map_cons, List.map_nil, List.cons.injEq, and_true] at hv
    rw [Var.degs_one, Var.toMono, Var.degs_one, hv]
  · simp at hv

theorem Poly.plusVar_appr (hD : RearrFree D) {p : Poly R} {v : Var R} (hp : Opd F P D ka (.poly p))
    (hv : Opd F P D kb (.var v)) (hG : Fits F (ka + kb - 1) (ad F (.poly p) + ad F (.var v))) :
    Go.Ok (p.plusVar v) (Res F P D (ka + kb - 1) (vd F (.poly p) + vd F (.var v))
      (ad F (.poly p) + ad F (.var v))) := by
  have hkb := hv.pos
  have hka := hp.pos
  rw [Poly.plusVar_eq hp.good.1 hp.good.2 hv.good.1]
  unfold plusVarList
  split
  · exact append_appr hD (l' := [v.toMono]) hp.good.1 (by simp) hp.fin hv.fin hp.good.2 hv.good.terms hp.keys
      hv.keys hG
  · rename_i i hi
    obtain ⟨x, hx, hx2⟩ := findIdx_get hi
    simp only [decide_eq_true_eq] at hx2
    have hdeg := degs_of_linear hx2.1 hx2.2
    have e1 : vd F (.var v) = monomial x.degs (F.val GoNum.one) := by rw [hdeg]; exact vden_single _
    have e2 : ad F (.var v) = monomial x.degs |F.val GoNum.one| := by rw [hdeg]; exact aden_single _
    rw [e1, e2]
    rw [e2] at hG
    refine (modify_appr hD hp.fin hp.good.2 hp.keys hx F.one.1 fun d => ?_).mono fun r hr => hr.weaken (by omega)
    refine small_le (by omega) ?_ (le_refl _) (hG d)
    rw [coeff_add]
    exact add_nonneg (aden_nonneg _ d) (coeff_monomial_nonneg (abs_nonneg _))

/-- Two terms that are alike. -/
theorem add_coeff_appr {n : ℕ} {m r : Mono R} (hm : GoodM P D m) (hd : r.degs = m.degs) (hmf : F.Fin m.coeff)
    (hrf : F.Fin r.coeff) (hn : 1 ≤ n) (hG : Fits F n (aden F [m] + aden F [r])) :
    Go.Ok (Mono.asSimplified { m with coeff := GoNum.add m.coeff r.coeff })
      (Res F P D n (vden F [m] + vden F [r]) (aden F [m] + aden F [r])) := by
  rw [vden_single, vden_single, aden_single, aden_single, hd, ← map_add, ← map_add]
  refine Mono.asSimplified_appr (F := F) (n := n) (a := ⟨{ m with coeff := GoNum.add m.coeff r.coeff }, 0 + 1,
    F.val m.coeff + F.val r.coeff, |F.val m.coeff| + |F.val r.coeff|⟩) ?_ (hm.congr rfl rfl) hn
  refine (near_self hmf).add (near_self hrf) (small_le (Nat.zero_le n) (by positivity) (le_of_eq ?_) (hG m.degs))
  rw [aden_single, aden_single, hd, coeff_add, coeff_monomial, coeff_monomial, if_pos rfl, if_pos rfl]

/-- Two constants. -/
theorem add_const_appr {n : ℕ} {m : Mono R} {c : R} (hm : GoodM P D m) (hv : m.vars = []) (hmf : F.Fin m.coeff)
    (hc : F.Fin c) (hn : 1 ≤ n) (hG : Fits F n (aden F [m] + aden F [kToMono c])) :
    Go.Ok (Scalar.asSimplified (.k (GoNum.add m.coeff c)))
      (Res F P D n (vden F [m] + vden F [kToMono c]) (aden F [m] + aden F [kToMono c])) := by
  have h := add_coeff_appr (P := P) (D := D) (n := n) (r := kToMono c) hm
    (hm.canon.degs_eq_zero.mpr hv).symm hmf hc hn hG
  have hg : GoodM P D { m with coeff := GoNum.add m.coeff (kToMono c).coeff } := hm.congr rfl rfl
  rw [Mono.asSimplified_eq hg.canon, if_pos hv] at h
  exact h

theorem pair_appr (hD : RearrFree D) {m r : Mono R} (hm : Opd F P D ka (.mono m)) (hr : Opd F P D kb (.mono r))
    (hG : Fits F (ka + kb - 1) (aden F [m] + aden F [r])) :
    Go.Ok (Scalar.asSimplified (.poly ⟨[m, r]⟩))
      (Res F P D (ka + kb - 1) (vden F [m] + vden F [r]) (aden F [m] + aden F [r])) :=
  append_appr hD (l := [m]) (l' := [r]) (by simp) (by simp) hm.fin hr.fin hm.good.terms hr.good.terms hm.keys
    hr.keys hG

theorem Opd.kMono {k : ℕ} {c : R} (h : Opd F P D k (.k c)) : Opd F P D k (.mono (kToMono c)) :=
  ⟨goodM_const c, h.fin, h.keys⟩

theorem Opd.vMono {k : ℕ} {v : Var R} (h : Opd F P D k (.var v)) : Opd F P D k (.mono v.toMono) :=
  ⟨goodM_var h.good.1 h.good.2.1 h.good.2.2 _, h.fin, h.keys⟩

theorem Mono.plus_appr (hD : RearrFree D) {m : Mono R} {e : Scalar R} (hm : Opd F P D ka (.mono m))
    (he : Opd F P D kb e) (hG : Fits F (ka + kb - 1) (ad F (.mono m) + ad F e)) :
    Go.Ok (m.plus e) (Res F P D (ka + kb - 1) (vd F (.mono m) + vd F e) (ad F (.mono m) + ad F e)) := by
  have hkb := he.pos
  have hka := hm.pos
  have hgm : GoodM P D m := hm.good
  have hmf : F.Fin m.coeff := hm.fin _ (List.mem_singleton.mpr rfl)
  unfold Mono.plus
  rw [hgm.canon.check, he.good.check, Go.ok_bind, Go.ok_bind]
  cases e with
  | k c =>
    have hcf : F.Fin c := he.fin _ (List.mem_singleton.mpr rfl)
    simp only [Go.pure_eq, Go.ok_bind]
    split
    · rename_i hc
      have hv : m.vars = [] := by simpa [Mono.isConstant] using hc
      exact add_const_appr hgm hv hmf hcf (by omega) hG
    · exact pair_appr hD hm he.kMono hG
  | var v =>
    simp only [Go.pure_eq, Go.ok_bind]
    rw [Mono.isDegreeOne_ok hgm.canon.len he.good.1, Go.ok_bind]
    split
    · rename_i h1
      simp only [decide_eq_true_eq] at h1
      exact add_coeff_appr (n := ka + kb - 1) (r := v.toMono) hgm (degs_of_linear h1.1 h1.2).symm hmf F.one.1
        (by omega) hG
    · exact pair_appr hD hm he.vMono hG
  | mono r =>
    have hgr : GoodM P D r := he.good
    simp only [Go.pure_eq, Go.ok_bind]
    rw [Mono.matches_shape hgm.canon.len hgr.canon.len, Go.ok_bind]
    split
    · rename_i h1
      have h1 : ShapeMatch m.shape r.shape := by simpa using h1
      have hkey := GoodM.key_eq_of_matches hD hgm hgr h1
      exact add_coeff_appr (n := ka + kb - 1) hgm (congrArg Prod.fst hkey).symm hmf
        (he.fin _ (List.mem_singleton.mpr rfl)) (by omega) hG
    · exact pair_appr hD hm he hG
  | poly p =>
    have e : ka + kb - 1 = kb + ka - 1 := by rw [add_comm]
    rw [add_comm (vd F _), add_comm (ad F _), e]
    have hG' : Fits F (kb + ka - 1) (ad F (.poly p) + ad F (.mono m)) := by rw [← e]; exact hG.comm
    exact (Poly.plusMono_appr hD he hm hG').bind fun r hr => hr.simp hD hG'

theorem Poly.plus_appr (hD : RearrFree D) {p : Poly R} {e : Scalar R} (hp : Opd F P D ka (.poly p))
    (he : Opd F P D kb e) (hG : Fits F (ka + kb - 1) (ad F (.poly p) + ad F e)) :
    Go.Ok (p.plus e) (Res F P D (ka + kb - 1) (vd F (.poly p) + vd F e) (ad F (.poly p) + ad F e)) := by
  cases e with
  | k c => exact Poly.plusK_appr hD hp he hG
  | var v => exact Poly.plusVar_appr hD hp he hG
  | mono m => exact Poly.plusMono_appr hD hp he hG
  | poly q => exact Poly.plusPoly_appr hD hp he hG

theorem Var.plus_appr (hD : RearrFree D) {v : Var R} {e : Scalar R} (hv : Opd F P D ka (.var v))
    (he : Opd F P D kb e) (hG : Fits F (ka + kb - 1) (ad F (.var v) + ad F e)) :
    Go.Ok (v.plus e) (Res F P D (ka + kb - 1) (vd F (.var v) + vd F e) (ad F (.var v) + ad F e)) := by
  have hkb := he.pos
  have hka := hv.pos
  unfold Var.plus
  rw [hv.good.1.check, Go.ok_bind]
  cases e with
  | k c =>
    simp only [Go.pure_eq, Go.ok_bind]
    exact pair_appr hD hv.vMono he.kMono hG
  | var w =>
    simp only [Go.pure_eq, Go.ok_bind]
    split
    · rename_i h1
      have hd : w.toMono.degs = v.toMono.degs := by
        rw [Var.toMono, Var.degs_one, Var.toMono, Var.degs_one, h1]
      have hd2 : Mono.degs ⟨(GoNum.ofInt 2 : R), [1], [v]⟩ = v.toMono.degs := by
        rw [Var.degs_one, Var.toMono, Var.degs_one]
      have := Mono.asSimplified_appr (F := F) (P := P) (D := D) (n := ka + kb - 1)
        (a := ⟨⟨GoNum.ofInt 2, [1], [v]⟩, 0, 2, 2⟩) ⟨F.two.1, by simp [F.two.2], by simp⟩
        (goodM_var hv.good.1 hv.good.2.1 hv.good.2.2 _) (Nat.zero_le _)
      simp only [hd2] at this
      have e1 : vd F (.var v) + vd F (.var w) = monomial v.toMono.degs 2 := by
        show vden F [_] + vden F [_] = _
        rw [vden_single, vden_single, hd, ← map_add]
        congr 1
        show F.val GoNum.one + F.val GoNum.one = 2
        rw [F.one.2]; norm_num
      have e2 : ad F (.var v) + ad F (.var w) = monomial v.toMono.degs 2 := by
        show aden F [_] + aden F [_] = _
        rw [aden_single, aden_single, hd, ← map_add]
        congr 1
        show |F.val GoNum.one| + |F.val GoNum.one| = 2
        rw [F.one.2]; norm_num
      rw [e1, e2]
      exact this
    · exact pair_appr hD hv.vMono he.vMono hG
  | mono m =>
    have e : ka + kb - 1 = kb + ka - 1 := by rw [add_comm]
    rw [add_comm (vd F _), add_comm (ad F _), e]
    have hG' : Fits F (kb + ka - 1) (ad F (.mono m) + ad F (.var v)) := by rw [← e]; exact hG.comm
    exact (Mono.plus_appr hD he hv hG').bind fun r hr => hr.simp hD hG'
  | poly p =>
    have e : ka + kb - 1 = kb + ka - 1 := by rw [add_comm]
    rw [add_comm (vd F _), add_comm (ad F _), e]
    have hG' : Fits F (kb + ka - 1) (ad F (.poly p) + ad F (.var v)) := by rw [← e]; exact hG.comm
    exact (Poly.plusVar_appr hD he hv hG').bind fun r hr => hr.simp hD hG'

/-- `Plus`: one rounding, and one more for each further term that is alike in an operand. -/
theorem Scalar.plus_appr (hD : RearrFree D) {a b : Scalar R} (ha : Opd F P D ka a) (hb : Opd F P D kb b)
    (hG : Fits F (ka + kb - 1) (ad F a + ad F b)) :
    Go.Ok (a.plus b) (Res F P D (ka + kb - 1) (vd F a + vd F b) (ad F a + ad F b)) := by
  have hka := ha.pos
  have hkb := hb.pos
  have e : ka + kb - 1 = kb + ka - 1 := by rw [add_comm]
  cases a with
  | k c =>
    have hcf : F.Fin c := ha.fin _ (List.mem_singleton.mpr rfl)
    show Go.Ok (kPlus c b) _
    unfold kPlus
    rw [hb.good.check, Go.ok_bind]
    cases b with
    | k d =>
      exact add_const_appr (m := kToMono c) (goodM_const c) rfl hcf (hb.fin _ (List.mem_singleton.mpr rfl))
        (by omega) hG
    | var v =>
      rw [add_comm (vd F _), add_comm (ad F _), e]
      exact Var.plus_appr hD hb ha (by rw [← e]; exact hG.comm)
    | mono m =>
      rw [add_comm (vd F _), add_comm (ad F _), e]
      exact Mono.plus_appr hD hb ha (by rw [← e]; exact hG.comm)
    | poly p =>
      rw [add_comm (vd F _), add_comm (ad F _), e]
      exact Poly.plusK_appr hD hb ha (by rw [← e]; exact hG.comm)
  | var v => exact Var.plus_appr hD ha hb hG
  | mono m => exact Mono.plus_appr hD ha hb hG
  | poly p => exact Poly.plus_appr hD ha hb hG

end Plus

end Verif
