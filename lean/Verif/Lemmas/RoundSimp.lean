import Verif.Lemmas.Round

/-!
# Rounding errors of `Simplify`
-/

set_option linter.unusedSectionVars false

namespace Verif

open MvPolynomial

variable {R K : Type} [GoNum R] [Field K] [LinearOrder K] [IsStrictOrderedRing K]
variable {F : RoundModel R K}
variable {P : Var R → Prop} {D : Set (ℕ →₀ ℕ)}

theorem key_const {m : Mono R} (hm : m.Canon) (h : m.vars = []) : m.rkey = (0, []) :=
  Prod.ext (hm.degs_eq_zero.mpr h) (hm.exps_nil.mpr h)

theorem near_zero {c : R} (hc : F.Fin c) (h : F.val c = 0) (n : ℕ) : Near F n c 0 0 :=
  ⟨hc, by simp [h], by simp⟩

/-- The loop of `Simplify`.  `N` counts the terms read so far by their keys. -/
theorem simplifyFold_ann (hD : RearrFree D) {k n0 : ℕ} {G : MvPolynomial ℕ K}
    (hG : ∀ d, F.Small ((1 + F.u) ^ (n0 + k) * coeff d G)) (B : List (Ann R K)) (A : List (Ann R K))
    (N : (ℕ →₀ ℕ) × List Int → ℕ) (c : R) (cx cb : K) (hB : ∀ b ∈ B, b.Ok F)
    (hBg : ∀ b ∈ B, GoodM P D b.m) (hBn : ∀ b ∈ B, b.n ≤ n0) (hA : ∀ e ∈ A, e.Ok F)
    (hAg : ∀ e ∈ A, GoodM P D e.m) (hAv : ∀ e ∈ A, e.m.vars ≠ [])
    (hAn : ∀ e ∈ A, 1 ≤ N e.m.rkey ∧ e.n + 1 ≤ n0 + N e.m.rkey)
    (hN : ∀ x, N x + (B.map (·.m.rkey)).count x ≤ k + 1)
    (hc : (N (0, []) = 0 ∧ F.Fin c ∧ F.val c = 0 ∧ cx = 0 ∧ cb = 0) ∨
      (1 ≤ N (0, []) ∧ ∃ j, j + 1 ≤ n0 + N (0, []) ∧ Near F j c cx cb))
    (hle : ∀ d, coeff d (monomial 0 cb + gsum A + gsum B) ≤ coeff d G) {st}
    (h : (B.map (·.m)).foldlM simplifyStep (c, A.map (·.m)) = .ok st) :
    ∃ (A' : List (Ann R K)) (cx' cb' : K), A'.map (·.m) = st.2 ∧ (∀ e ∈ A', e.Ok F ∧ e.n ≤ n0 + k) ∧
      Near F (n0 + k) st.1 cx' cb' ∧
      monomial 0 cx' + fsum A' = monomial 0 cx + fsum A + fsum B ∧
      monomial 0 cb' + gsum A' = monomial 0 cb + gsum A + gsum B := by
  induction B generalizing A N c cx cb with
  | nil =>
    simp only [List.map_nil, List.foldlM_nil, Go.pure_eq, Except.ok.injEq] at h
    subst h
    refine ⟨A, cx, cb, rfl, fun e he => ⟨hA e he, ?_⟩, ?_, by simp, by simp⟩
    · have h1 := (hAn e he).2
      have h2 := hN e.m.rkey
      simp only [List.map_nil, List.count_nil] at h2
      omega
    · rcases hc with ⟨-, h1, h2, rfl, rfl⟩ | ⟨-, j, h1, h2⟩
      · exact near_zero h1 h2 _
      · have := hN (0, [])
        simp only [List.map_nil, List.count_nil] at this
        exact h2.weaken (by omega)
  | cons a B ih =>
    have ha := hB a (by simp)
    have hg := hBg a (by simp)
    have hn := hBn a (by simp)
    rw [List.map_cons, List.foldlM_cons] at h
    obtain ⟨⟨c', nc'⟩, h1, h2⟩ := Go.bind_eq_ok.mp h
    have hgood : GoodL P D nc' ∧ ∀ m ∈ nc', m.vars ≠ [] := by
      have := simplifyFold_ok (P := P) (D := D) [a.m] c (A.map (·.m))
        (fun m hm => by rw [List.mem_singleton] at hm; exact hm ▸ hg)
        (fun m hm => by obtain ⟨e, he, rfl⟩ := List.mem_map.mp hm; exact hAg e he)
        (fun m hm => by obtain ⟨e, he, rfl⟩ := List.mem_map.mp hm; exact hAv e he)
      simp only [List.foldlM_cons, List.foldlM_nil] at this
      rw [h1, Go.ok_bind, Go.pure_eq] at this
      obtain ⟨x, hx, hx2⟩ := this
      simp only [Except.ok.injEq] at hx
      subst hx
      exact hx2
    have hNk : N a.m.rkey ≤ k := by
      have := hN a.m.rkey
      rw [List.map_cons, List.count_cons_self] at this
      omega
    have hN' : ∀ x, (N x + if x = a.m.rkey then 1 else 0) + (B.map (·.m.rkey)).count x ≤ k + 1 := by
      intro x
      have := hN x
      rw [List.map_cons, List.count_cons] at this
      by_cases hx : x = a.m.rkey
      · subst hx; simp only [beq_self_eq_true, if_true] at this ⊢; omega
      · have h3 : (a.m.rkey == x) = false := by simpa using fun h => hx h.symm
        rw [h3] at this
        simp only [hx, if_false] at this ⊢
        simpa using this
    unfold simplifyStep at h1
    by_cases hcst : a.m.isConstant
    · rw [if_pos hcst] at h1
      simp only [Go.pure_eq, Except.ok.injEq, Prod.mk.injEq] at h1
      obtain ⟨rfl, rfl⟩ := h1
      have hv : a.m.vars = [] := by simpa [Mono.isConstant] using hcst
      have hkey := key_const hg.canon hv
      have hdeg : a.m.degs = 0 := hg.canon.degs_eq_zero.mpr hv
      obtain ⟨A', cx', cb', g1, g2, g3, g4, g5⟩ := ih A (fun x => N x + if x = a.m.rkey then 1 else 0)
        (GoNum.add c a.m.coeff) (cx + a.x) (cb + a.b) (fun b hb => hB b (by simp [hb]))
        (fun b hb => hBg b (by simp [hb])) (fun b hb => hBn b (by simp [hb])) hA hAg hAv
        (fun e he => by have := hAn e he; omega) hN' (by
          right
          simp only [hkey, if_true]
          refine ⟨by omega, ?_⟩
          rcases hc with ⟨h0, hf, hz, rfl, rfl⟩ | ⟨h0, j, hj, hnear⟩
          · refine ⟨n0, by omega, ?_⟩
            rw [zero_add, zero_add]
            exact Near.zero_add hf hz (ha.weaken hn)
          · rw [hkey] at hNk
            obtain ⟨i, hi1, hi2, hi3⟩ : ∃ i, j ≤ i ∧ a.n ≤ i ∧ i + 1 ≤ n0 + N (0, []) :=
              ⟨max j a.n, le_max_left _ _, le_max_right _ _, by
                rcases max_choice j a.n with h | h <;> rw [h] <;> omega⟩
            refine ⟨i + 1, by omega, (hnear.weaken hi1).add (ha.weaken hi2) (F.small_mono ?_ (hG 0))⟩
            have e0 : 0 ≤ cb + a.b := add_nonneg hnear.nonneg ha.nonneg
            have e1 : cb + a.b ≤ coeff 0 G := by
              have e2 := hle 0
              rw [gsum_cons, coeff_add, coeff_add, coeff_add, hdeg, coeff_monomial, coeff_monomial,
                if_pos rfl, if_pos rfl] at e2
              have e3 := gsum_nonneg hA 0
              have e4 := gsum_nonneg (fun b hb => hB b (by simp [hb])) 0 (A := B)
              linarith
            have e2 : (1 + F.u) ^ i ≤ (1 + F.u) ^ (n0 + k) := pow_u_mono F (by omega)
            have e3 : 0 ≤ (1 + F.u) ^ i := le_trans zero_le_one (one_le_pow_u F i)
            rw [abs_of_nonneg (mul_nonneg e3 e0), abs_of_nonneg (mul_nonneg (e3.trans e2) (e0.trans e1))]
            exact mul_le_mul e2 e1 e0 (e3.trans e2)) (fun d => by
          refine le_trans (le_of_eq ?_) (hle d)
          rw [gsum_cons, hdeg, map_add]
          congr 1
          ring) h2
      refine ⟨A', cx', cb', g1, g2, g3, ?_, ?_⟩
      · rw [g4, fsum_cons, hdeg, map_add]; ring
      · rw [g5, gsum_cons, hdeg, map_add]; ring
    · rw [if_neg hcst] at h1
      obtain ⟨o, ho, h1⟩ := Go.bind_eq_ok.mp h1
      simp only [Go.pure_eq, Except.ok.injEq, Prod.mk.injEq] at h1
      obtain ⟨rfl, rfl⟩ := h1
      obtain ⟨A1, f1, f2, f3, f4, f5⟩ := insert_ann hD ha hg hn N hNk hG A hA hAg hAn (fun d => by
        refine le_trans ?_ (hle d)
        have e4 := gsum_nonneg (fun b hb => hB b (by simp [hb])) d (A := B)
        rw [gsum_cons, coeff_add, coeff_add, coeff_add]
        have hcb : 0 ≤ cb := by
          rcases hc with ⟨-, -, -, -, rfl⟩ | ⟨-, j, -, hnear⟩
          · exact le_refl _
          · exact hnear.nonneg
        have e5 : 0 ≤ coeff d (monomial 0 cb) := coeff_monomial_nonneg hcb
        linarith) ho
      subst f1
      have hvne : a.m.rkey ≠ (0, []) := by
        intro h
        have h3 : a.m.exps = [] := congrArg Prod.snd h
        apply hcst
        rw [hg.canon.exps_nil] at h3
        simp [Mono.isConstant, h3]
      obtain ⟨A', cx', cb', g1, g2, g3, g4, g5⟩ := ih A1 (fun x => N x + if x = a.m.rkey then 1 else 0)
        c cx cb (fun b hb => hB b (by simp [hb])) (fun b hb => hBg b (by simp [hb]))
        (fun b hb => hBn b (by simp [hb])) f2 (fun e he => hgood.1 _ (List.mem_map_of_mem he))
        (fun e he => hgood.2 _ (List.mem_map_of_mem he)) f5 hN'
        (by simpa only [hvne.symm, if_false, Nat.add_zero] using hc) (fun d => by
          refine le_trans (le_of_eq ?_) (hle d)
          rw [f4, gsum_cons]
          congr 1
          ring) h2
      refine ⟨A', cx', cb', g1, g2, g3, ?_, ?_⟩
      · rw [g4, f3, fsum_cons]; ring
      · rw [g5, f4, gsum_cons]; ring

/-! ## The result -/

/-- The terms of a scalar expression. -/
def Scalar.terms : Scalar R → List (Mono R)
  | .k c => [kToMono c]
  | .var v => [v.toMono]
  | .mono m => [m]
  | .poly p => p.monos

/-- At most `k` terms are alike. -/
def KeysLe (k : ℕ) (l : List (Mono R)) : Prop := ∀ x, (l.map Mono.rkey).count x ≤ k

theorem TidyL.keysLe {l : List (Mono R)} (h : TidyL l) : KeysLe 1 l := fun x =>
  List.nodup_iff_count_le_one.mp h x

theorem keysLe_one {l : List (Mono R)} : KeysLe 1 l ↔ TidyL l :=
  List.nodup_iff_count_le_one.symm

theorem tidy_single (m : Mono R) : TidyL [m] := by simp [TidyL]

/-- A result: well formed, no two terms alike, coefficients within `n` roundings. -/
structure Res (F : RoundModel R K) (P : Var R → Prop) (D : Set (ℕ →₀ ℕ)) (n : ℕ) (f g : MvPolynomial ℕ K)
    (r : Scalar R) : Prop where
  good : Good P D r
  tidy : TidyL r.terms
  appr : Appr F n r.terms f g

theorem Appr.congr {n : ℕ} {l l' : List (Mono R)} {f g : MvPolynomial ℕ K} (h : Appr F n l f g)
    (hf : ∀ m ∈ l', F.Fin m.coeff) (h1 : vden F l' = vden F l) (h2 : aden F l' = aden F l) :
    Appr F n l' f g :=
  ⟨hf, by rw [h1]; exact h.err, h.le, by rw [h2]; exact h.size⟩

theorem Appr.gnonneg {n : ℕ} {l : List (Mono R)} {f g : MvPolynomial ℕ K} (h : Appr F n l f g) (d) :
    0 ≤ coeff d g := (abs_nonneg _).trans (h.le d)

theorem Appr.weaken {n k : ℕ} {l : List (Mono R)} {f g : MvPolynomial ℕ K} (h : Appr F n l f g) (hk : n ≤ k) :
    Appr F k l f g := by
  have e := pow_u_mono F hk
  exact ⟨h.fin, fun d => (h.err d).trans (mul_le_mul_of_nonneg_right (by linarith) (h.gnonneg d)), h.le,
    fun d => (h.size d).trans (mul_le_mul_of_nonneg_right e (h.gnonneg d))⟩

theorem Res.weaken {n k : ℕ} {r : Scalar R} {f g : MvPolynomial ℕ K} (h : Res F P D n f g r) (hk : n ≤ k) :
    Res F P D k f g r := ⟨h.good, h.tidy, h.appr.weaken hk⟩

theorem vterm_zero {m : Mono R} (h : F.val m.coeff = 0) : vterm F m = 0 := by simp [vterm, h]
theorem aterm_zero {m : Mono R} (h : F.val m.coeff = 0) : aterm F m = 0 := by simp [aterm, h]

theorem filter_den (l : List (Mono R)) (hf : ∀ m ∈ l, F.Fin m.coeff) :
    vden F (l.filter fun m => !GoNum.feq m.coeff GoNum.zero) = vden F l ∧
    aden F (l.filter fun m => !GoNum.feq m.coeff GoNum.zero) = aden F l := by
  induction l with
  | nil => exact ⟨rfl, rfl⟩
  | cons m l ih =>
    obtain ⟨h1, h2⟩ := ih fun x hx => hf x (by simp [hx])
    rw [List.filter_cons]
    cases h : GoNum.feq m.coeff (GoNum.zero : R) with
    | true =>
      have h0 : F.val m.coeff = 0 := by
        rw [(F.feq (hf m (by simp)) F.zero.1).mp h]; exact F.zero.2
      simp [h1, h2, vterm_zero h0, aterm_zero h0]
    | false => simp [h1, h2]

theorem simplifyList_vden (st : R × List (Mono R)) (hc : F.Fin st.1) (hf : ∀ m ∈ st.2, F.Fin m.coeff) :
    (∀ m ∈ simplifyList st, F.Fin m.coeff) ∧ vden F (simplifyList st) = vden F (kToMono st.1 :: st.2) ∧
    aden F (simplifyList st) = aden F (kToMono st.1 :: st.2) := by
  have key : (∀ m ∈ simplifyOut st, F.Fin m.coeff) ∧ vden F (simplifyOut st) = vden F (kToMono st.1 :: st.2) ∧
      aden F (simplifyOut st) = aden F (kToMono st.1 :: st.2) := by
    obtain ⟨h1, h2⟩ := filter_den st.2 hf
    unfold simplifyOut
    refine ⟨?_, ?_, ?_⟩
    · intro m hm
      rcases List.mem_append.mp hm with hm | hm
      · split at hm
        · simp at hm
        · rw [List.mem_singleton] at hm; subst hm; exact hc
      · exact hf m (List.mem_of_mem_filter hm)
    · rw [vden_append, h1, vden_cons]
      split
      · rename_i h
        have h0 : F.val st.1 = 0 := by rw [(F.feq hc F.zero.1).mp h]; exact F.zero.2
        rw [vterm_zero (m := kToMono st.1) h0]; rfl
      · simp
    · rw [aden_append, h2, aden_cons]
      split
      · rename_i h
        have h0 : F.val st.1 = 0 := by rw [(F.feq hc F.zero.1).mp h]; exact F.zero.2
        rw [aterm_zero (m := kToMono st.1) h0]; rfl
      · simp
  unfold simplifyList
  split
  · rename_i he
    rw [List.isEmpty_iff] at he
    rw [he] at key
    refine ⟨?_, ?_, ?_⟩
    · intro m hm
      rw [List.mem_singleton] at hm; subst hm; exact F.zero.1
    · rw [← key.2.1, vden_cons, vterm_zero (m := kToMono GoNum.zero) F.zero.2]; simp
    · rw [← key.2.2, aden_cons, aterm_zero (m := kToMono GoNum.zero) F.zero.2]; simp
  · exact key

theorem SimpResult.terms_vden {l : List (Mono R)} {r : Scalar R} (h : SimpResult l r)
    (hf : ∀ m ∈ l, F.Fin m.coeff) : (∀ m ∈ r.terms, F.Fin m.coeff) ∧ vden F r.terms = vden F l ∧
      aden F r.terms = aden F l ∧ r.terms.map Mono.rkey = l.map Mono.rkey := by
  cases h with
  | const c h => subst h; exact ⟨hf, rfl, rfl, rfl⟩
  | var c v h hc =>
    subst h
    have h1 : F.val c = F.val GoNum.one := (F.feq (hf _ (List.mem_singleton.mpr rfl)) F.one.1).mp hc
    refine ⟨?_, ?_, ?_, rfl⟩
    · intro m hm
      simp only [Scalar.terms, List.mem_singleton] at hm; subst hm; exact F.one.1
    · simp only [Scalar.terms, vden_cons, vterm, Var.toMono, h1]; rfl
    · simp only [Scalar.terms, aden_cons, aterm, Var.toMono, h1]; rfl
  | mono m h hv hn => subst h; exact ⟨hf, rfl, rfl, rfl⟩
  | poly h => exact ⟨hf, rfl, rfl, rfl⟩

theorem NF.tidy {l : List (Mono R)} (h : NF P D l) : TidyL l := by
  rcases h.form with ⟨c, rfl⟩ | ⟨nc, -, hv, hn, rfl | ⟨c, -, rfl⟩⟩
  · exact tidy_single _
  · exact hn.tidy fun m hm => (h.good m hm).canon
  · have h1 : TidyL nc := hn.tidy fun m hm => (h.good m (by simp [hm])).canon
    unfold TidyL
    rw [List.map_cons, List.nodup_cons]
    refine ⟨?_, h1⟩
    intro hmem
    obtain ⟨b, hb, hbd⟩ := List.mem_map.mp hmem
    have h2 : b.exps = [] := congrArg Prod.snd hbd
    exact (hv b hb).1 ((h.good b (by simp [hb])).canon.exps_nil.mp h2)

/-- `Simplify` on annotated terms, at most `k + 1` of them alike: `k` more roundings. -/
theorem Poly.asSimplified_appr (hD : RearrFree D) {k n0 : ℕ} {B : List (Ann R K)} (hne : B ≠ [])
    (hB : ∀ b ∈ B, b.Ok F) (hBg : ∀ b ∈ B, GoodM P D b.m) (hBn : ∀ b ∈ B, b.n ≤ n0)
    (hk : KeysLe (k + 1) (B.map (·.m))) (hG : ∀ d, F.Small ((1 + F.u) ^ (n0 + k) * coeff d (gsum B))) :
    Go.Ok (Poly.asSimplified ⟨B.map (·.m)⟩) (Res F P D (n0 + k) (fsum B) (gsum B)) := by
  have hgl : GoodL P D (B.map (·.m)) := fun m hm => by
    obtain ⟨e, he, rfl⟩ := List.mem_map.mp hm; exact hBg e he
  have hne' : (Poly.mk (B.map (·.m))).monos ≠ [] := by simpa using hne
  refine (Poly.asSimplified_ok hne' hgl).mono ?_
  rintro r ⟨q, hq, -, hqg, hr⟩
  obtain ⟨st, hst, -, -⟩ := simplifyFold_ok (B.map (·.m)) GoNum.zero [] hgl (by simp [GoodL]) (by simp)
  obtain ⟨A', cx, cb, g1, g2, g3, g4, g5⟩ := simplifyFold_ann hD hG B [] (fun _ => 0) GoNum.zero 0 0 hB hBg
    hBn (by simp) (by simp) (by simp) (by simp) (fun x => by
      have := hk x
      rw [List.map_map] at this
      simpa [Function.comp_def] using this) (Or.inl ⟨rfl, F.zero.1, F.zero.2, rfl, rfl⟩) (by simp) hst
  have hq' := hq
  rw [Poly.simplify_eq (GoodL.check hne' hgl) hst, Except.ok.injEq] at hq'
  have hA : Appr F (n0 + k) ((⟨kToMono st.1, n0 + k, cx, cb⟩ :: A').map (·.m)) (fsum B) (gsum B) := by
    have := appr_of_ann (F := F) (A := ⟨kToMono st.1, n0 + k, cx, cb⟩ :: A') (n := n0 + k) (by
      intro a ha
      rcases List.mem_cons.mp ha with rfl | ha
      · exact g3
      · exact (g2 a ha).1) (by
      intro a ha
      rcases List.mem_cons.mp ha with rfl | ha
      · exact le_refl _
      · exact (g2 a ha).2)
    have e1 : fsum (⟨kToMono st.1, n0 + k, cx, cb⟩ :: A') = fsum B := by
      rw [fsum_cons]
      have : (kToMono st.1).degs = 0 := rfl
      rw [this, g4]; simp
    have e2 : gsum (⟨kToMono st.1, n0 + k, cx, cb⟩ :: A') = gsum B := by
      rw [gsum_cons]
      have : (kToMono st.1).degs = 0 := rfl
      rw [this, g5]; simp
    rwa [e1, e2] at this
  rw [List.map_cons, g1] at hA
  obtain ⟨h1, h2, h3⟩ := simplifyList_vden (F := F) st g3.fin fun m hm => hA.fin m (by simp [hm])
  subst hq'
  obtain ⟨h4, h5, h6, h7⟩ := hr.terms_vden h1
  refine ⟨hr.good hqg, ?_, hA.congr h4 (h5.trans h2) (h6.trans h3)⟩
  unfold TidyL
  rw [h7]
  exact (simplify_nf hne' hgl hq).tidy

/-- One term. -/
theorem Mono.asSimplified_appr {n : ℕ} {a : Ann R K} (ha : a.Ok F) (hg : GoodM P D a.m) (hn : a.n ≤ n) :
    Go.Ok a.m.asSimplified (Res F P D n (monomial a.m.degs a.x) (monomial a.m.degs a.b)) := by
  have hA := appr_of_ann (F := F) (A := [a]) (n := n) (by simpa using ha) (by simpa using hn)
  simp only [List.map_cons, List.map_nil, fsum_cons, fsum_nil, gsum_cons, gsum_nil, add_zero] at hA
  refine ((Mono.asSimplified_good hg).and (Q := fun r => TidyL r.terms ∧
    Appr F n r.terms (monomial a.m.degs a.x) (monomial a.m.degs a.b)) ?_).mono ?_
  · intro r hr
    rw [Mono.asSimplified_eq hg.canon, Except.ok.injEq] at hr
    have hf := ha.fin
    split at hr
    · rename_i hv
      subst hr
      refine ⟨tidy_single _, hA.congr (by simpa [Scalar.terms, kToMono] using hf) ?_ ?_⟩
      · have : (kToMono a.m.coeff).degs = a.m.degs := (hg.canon.degs_eq_zero.mpr hv).symm
        simp [Scalar.terms, vterm, this]; rfl
      · have : (kToMono a.m.coeff).degs = a.m.degs := (hg.canon.degs_eq_zero.mpr hv).symm
        simp [Scalar.terms, aterm, this]; rfl
    · split at hr
      · rename_i h0
        subst hr
        have h0 : F.val a.m.coeff = 0 := by rw [(F.feq hf F.zero.1).mp h0]; exact F.zero.2
        refine ⟨tidy_single _, hA.congr (by simpa [Scalar.terms, kToMono] using F.zero.1) ?_ ?_⟩
        · simp [Scalar.terms, vterm_zero h0, vterm_zero (m := kToMono GoNum.zero) F.zero.2]
        · simp [Scalar.terms, aterm_zero h0, aterm_zero (m := kToMono GoNum.zero) F.zero.2]
      · split at hr
        · rename_i hv _ h1
          rcases a with ⟨⟨c, es, vs⟩, n', x, b⟩
          simp only at hv h1 hr hf hA ⊢
          cases vs with
          | nil => exact absurd rfl hv
          | cons v vs =>
            have hl := hg.canon.len
            simp only [h1.2, List.length_cons, List.length_nil] at hl
            have : vs = [] := by
              rw [← List.length_eq_zero_iff]; omega
            subst this
            subst hr
            obtain ⟨h1, rfl⟩ := h1
            have h1 : F.val c = F.val GoNum.one := (F.feq hf F.one.1).mp h1
            refine ⟨tidy_single _, hA.congr (by simpa [Scalar.terms, Var.toMono] using F.one.1) ?_ ?_⟩
            · simp only [Scalar.terms, vden_cons, vterm, Var.toMono, h1]; rfl
            · simp only [Scalar.terms, aden_cons, aterm, Var.toMono, h1]; rfl
        · subst hr
          exact ⟨tidy_single _, hA⟩
  · exact fun r h => ⟨h.1, h.2.1, h.2.2⟩

/-! ## Composition -/

/-- What approximates an approximation. -/
theorem Appr.trans {n k : ℕ} {l : List (Mono R)} {f g f' g' : MvPolynomial ℕ K} (h : Appr F k l f' g')
    (h1 : ∀ d, |coeff d f' - coeff d f| ≤ ((1 + F.u) ^ n - 1) * coeff d g) (h2 : ∀ d, |coeff d f| ≤ coeff d g)
    (h3 : ∀ d, coeff d g' ≤ (1 + F.u) ^ n * coeff d g) : Appr F (n + k) l f g := by
  have hk := one_le_pow_u F k
  have hn := one_le_pow_u F n
  refine ⟨h.fin, fun d => ?_, h2, fun d => ?_⟩
  · have e1 := abs_add_le (coeff d (vden F l) - coeff d f') (coeff d f' - coeff d f)
    rw [sub_add_sub_cancel] at e1
    have e2 := h.err d
    have e3 := h1 d
    have e4 := mul_le_mul_of_nonneg_left (h3 d) (sub_nonneg.mpr hk)
    rw [pow_add]
    nlinarith
  · have e4 := mul_le_mul_of_nonneg_left (h3 d) (le_trans zero_le_one hk)
    have e5 := h.size d
    rw [pow_add]
    nlinarith

theorem aden_nonneg (l : List (Mono R)) (d) : 0 ≤ coeff d (aden F l) := by
  induction l with
  | nil => simp
  | cons m l ih =>
    rw [aden_cons, coeff_add]
    exact add_nonneg (coeff_monomial_nonneg (abs_nonneg _)) ih

theorem vden_le_aden (l : List (Mono R)) (d) : |coeff d (vden F l)| ≤ coeff d (aden F l) := by
  induction l with
  | nil => simp
  | cons m l ih =>
    rw [aden_cons, vden_cons, coeff_add, coeff_add]
    refine (abs_add_le _ _).trans (add_le_add ?_ ih)
    unfold vterm aterm
    rw [coeff_monomial, coeff_monomial]
    split <;> simp

theorem appr_self {l : List (Mono R)} (hf : ∀ m ∈ l, F.Fin m.coeff) : Appr F 0 l (vden F l) (aden F l) :=
  ⟨hf, fun d => by simp, vden_le_aden l, fun d => by simp⟩

theorem small_le {n k : ℕ} {p q : K} (hk : n ≤ k) (hp : 0 ≤ p) (hq : p ≤ q)
    (h : F.Small ((1 + F.u) ^ k * q)) : F.Small ((1 + F.u) ^ n * p) := by
  refine F.small_mono ?_ h
  have e1 := pow_u_mono F hk
  have e2 := le_trans zero_le_one (one_le_pow_u F n)
  rw [abs_of_nonneg (mul_nonneg e2 hp), abs_of_nonneg (mul_nonneg (e2.trans e1) (hp.trans hq))]
  exact mul_le_mul e1 hq hp (e2.trans e1)

theorem small_le' {n : ℕ} {p q : K} (hp : 0 ≤ p) (hq : p ≤ (1 + F.u) ^ n * q)
    (h : F.Small ((1 + F.u) ^ n * q)) : F.Small p := by
  refine F.small_mono ?_ h
  rwa [abs_of_nonneg hp, abs_of_nonneg (hp.trans hq)]

/-- Annotation of given terms. -/
theorem selfAnn_ok {l : List (Mono R)} (hf : ∀ m ∈ l, F.Fin m.coeff) : ∀ a ∈ l.map (selfAnn F), a.Ok F := by
  intro a ha
  obtain ⟨m, hm, rfl⟩ := List.mem_map.mp ha
  exact near_self (hf m hm)

theorem map_selfAnn (l : List (Mono R)) : (l.map (selfAnn F)).map (·.m) = l := by
  rw [List.map_map]
  have : (fun a : Ann R K => a.m) ∘ selfAnn F = id := rfl
  rw [this, List.map_id]

/-- `Simplify` on given terms. -/
theorem Poly.asSimplified_self (hD : RearrFree D) {k : ℕ} {l : List (Mono R)} (hne : l ≠ [])
    (hf : ∀ m ∈ l, F.Fin m.coeff) (hg : GoodL P D l) (hk : KeysLe (k + 1) l)
    (hG : ∀ d, F.Small ((1 + F.u) ^ k * coeff d (aden F l))) :
    Go.Ok (Poly.asSimplified ⟨l⟩) (Res F P D k (vden F l) (aden F l)) := by
  have := Poly.asSimplified_appr (F := F) (P := P) hD (k := k) (n0 := 0) (B := l.map (selfAnn F))
    (by simpa using hne) (selfAnn_ok hf)
    (fun b hb => by obtain ⟨m, hm, rfl⟩ := List.mem_map.mp hb; exact hg m hm)
    (fun b hb => by obtain ⟨m, hm, rfl⟩ := List.mem_map.mp hb; exact le_refl _)
    (by rwa [map_selfAnn]) (by rw [gsum_self]; simpa using hG)
  rwa [map_selfAnn, fsum_self, gsum_self, Nat.zero_add] at this

/-- Simplifying once more rounds nothing. -/
theorem Res.simp (hD : RearrFree D) {n : ℕ} {r : Scalar R} {f g : MvPolynomial ℕ K} (h : Res F P D n f g r)
    (hG : ∀ d, F.Small ((1 + F.u) ^ n * coeff d g)) : Go.Ok r.asSimplified (Res F P D n f g) := by
  have key : Go.Ok r.asSimplified (Res F P D 0 (vden F r.terms) (aden F r.terms)) := by
    cases r with
    | k c => exact Go.ok_pure ⟨trivial, h.tidy, appr_self h.appr.fin⟩
    | var v => exact Go.ok_pure ⟨h.good, h.tidy, appr_self h.appr.fin⟩
    | mono m =>
      have := Mono.asSimplified_appr (F := F) (a := selfAnn F m) (n := 0)
        (near_self (h.appr.fin m (by simp [Scalar.terms]))) h.good (le_refl _)
      show Go.Ok m.asSimplified _
      simpa [Scalar.terms, vterm, aterm, selfAnn] using this
    | poly p =>
      refine Poly.asSimplified_self hD h.good.1 h.appr.fin h.good.2 h.tidy.keysLe fun d => ?_
      rw [pow_zero, one_mul]
      exact small_le' (aden_nonneg _ d) (h.appr.size d) (hG d)
  refine key.mono fun s hs => ⟨hs.good, hs.tidy, ?_⟩
  have := hs.appr.trans (n := n) h.appr.err h.appr.le h.appr.size
  simpa using this

end Verif
