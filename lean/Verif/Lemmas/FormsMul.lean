import Verif.Lemmas.Forms

/-!
# How products are written

A product lists the variables of the first factor, then the new variables of the second factor.
-/

set_option linter.unusedSectionVars false

namespace Verif

open MvPolynomial

/-- The exponent of a variable. -/
def Writing.exp (w : Writing) (i : ℕ) : Int := (((w.1.zip w.2).filter fun p => decide (p.1 = i)).map (·.2)).sum

/-- How the product of two terms is written. -/
def Writing.mul (w w' : Writing) : Writing :=
  let ids := w.1 ++ w'.1.filter fun i => decide (i ∉ w.1)
  (ids, ids.map fun i => w.exp i + w'.exp i)

/-- Products of a term of `W1` (or a constant) and a term of `W2` (or a constant) are in `W3`. -/
def ProdTo (W1 W2 W3 : Set Writing) : Prop :=
  ∀ w ∈ insert ([], []) W1, ∀ w' ∈ insert ([], []) W2, (w.mul w').1 ≠ [] → w.mul w' ∈ W3

/-- The same in either order. -/
def ProdW (W1 W2 W3 : Set Writing) : Prop := ProdTo W1 W2 W3 ∧ ProdTo W2 W1 W3

/-- `Multiply` on these kinds calls `Multiply` of the second operand (`variable.go:325-330`,
`monomial.go:228-229`). -/
def Scalar.Swaps {R : Type} : Scalar R → Scalar R → Prop
  | .var _, .mono _ => True
  | .var _, .poly _ => True
  | .mono _, .poly _ => True
  | _, _ => False

/-- Terms that `Simplify` merges are equal. -/
def Consistent (W : Set Writing) : Prop := ∀ w ∈ W, ∀ w' ∈ W, w.form = w'.form → w.degs = w'.degs

theorem exp_cons (i j : ℕ) (e : Int) (ids : List ℕ) (es : List Int) :
    Writing.exp (i :: ids, e :: es) j = (if i = j then e else 0) + Writing.exp (ids, es) j := by
  unfold Writing.exp
  simp only [List.zip_cons_cons, List.filter_cons]
  by_cases h : i = j <;> simp [h]

theorem exp_nil (es : List Int) (j : ℕ) : Writing.exp ([], es) j = 0 := rfl

theorem exp_of_notMem {ids : List ℕ} {es : List Int} {j : ℕ} (h : j ∉ ids) : Writing.exp (ids, es) j = 0 := by
  induction ids generalizing es with
  | nil => rfl
  | cons i ids ih =>
    cases es with
    | nil => rfl
    | cons e es =>
      rw [List.mem_cons, not_or] at h
      rw [exp_cons, if_neg (Ne.symm h.1), ih h.2, add_zero]

theorem exps_eq {ids : List ℕ} {es : List Int} (hl : es.length = ids.length) (hn : ids.Nodup) :
    ids.map (Writing.exp (ids, es)) = es := by
  induction ids generalizing es with
  | nil => exact (List.eq_nil_of_length_eq_zero hl).symm
  | cons i ids ih =>
    cases es with
    | nil => simp at hl
    | cons e es =>
      rw [List.nodup_cons] at hn
      rw [List.map_cons, exp_cons, if_pos rfl, exp_of_notMem hn.1, add_zero]
      congr 1
      have : ids.map (Writing.exp (i :: ids, e :: es)) = ids.map (Writing.exp (ids, es)) := by
        refine List.map_congr_left fun j hj => ?_
        rw [exp_cons, if_neg (by rintro rfl; exact hn.1 hj), zero_add]
      rw [this]
      exact ih (by simpa using hl) hn.2

theorem exp_degs {ids : List ℕ} {es : List Int} (hp : ∀ e ∈ es, 0 ≤ e) (j : ℕ) :
    Writing.exp (ids, es) j = (Writing.degs (ids, es) j : Int) := by
  induction ids generalizing es with
  | nil => rfl
  | cons i ids ih =>
    cases es with
    | nil => rfl
    | cons e es =>
      rw [exp_cons, ih fun x hx => hp x (List.mem_cons_of_mem _ hx)]
      unfold Writing.degs
      simp only [List.zip_cons_cons, List.map_cons, List.sum_cons, Finsupp.add_apply, Finsupp.single_apply]
      have := hp e (List.mem_cons_self ..)
      by_cases h : i = j
      · simp only [h, if_true]
        omega
      · simp [h]

section
variable {R : Type} [GoNum R]

theorem Mono.Canon.exp {m : Mono R} (h : m.Canon) (j : ℕ) : m.writing.exp j = (m.degs j : Int) := by
  rw [← m.writing_degs]
  exact exp_degs (fun e he => (h.pos e he).le) j

/-- A well-formed term is determined by the order of its variables and its exponent vector. -/
theorem Mono.Canon.writing_eq {m : Mono R} (h : m.Canon) :
    m.writing = (m.writing.1, m.writing.1.map fun i => (m.degs i : Int)) := by
  refine Prod.ext rfl ?_
  have h1 : m.writing.1.map (Writing.exp m.writing) = m.writing.2 :=
    exps_eq (by show m.exps.length = (m.vars.map _).length; rw [List.length_map]; exact h.len) h.nodup
  show m.writing.2 = _
  rw [← h1]
  exact List.map_congr_left fun j _ => h.exp j

theorem writing_mul {m r p : Mono R} (hm : m.Canon) (hr : r.Canon) (hp : p.Canon)
    (hd : p.degs = m.degs + r.degs) (hi : p.writing.1 = (m.writing.mul r.writing).1) :
    p.writing = m.writing.mul r.writing := by
  rw [hp.writing_eq, hi]
  refine Prod.ext rfl ?_
  show List.map _ _ = List.map _ _
  refine List.map_congr_left fun j _ => ?_
  rw [hd, hm.exp, hr.exp, Finsupp.add_apply]
  push_cast
  rfl

theorem uniqueFold_ids (l acc : List (Var R)) (h : (l.map (·.id)).Nodup) :
    (l.foldl uniqueStep acc).map (·.id) =
      acc.map (·.id) ++ (l.map (·.id)).filter fun i => decide (i ∉ acc.map (·.id)) := by
  induction l generalizing acc with
  | nil => simp
  | cons v l ih =>
    rw [List.map_cons, List.nodup_cons] at h
    rw [List.foldl_cons, ih _ h.2]
    have hc : ∀ a : List (Var R), (∀ i ∈ l.map (·.id), i ∈ a.map (·.id) ↔ i ∈ acc.map (·.id)) →
        (l.map (·.id)).filter (fun i => decide (i ∉ a.map (·.id))) =
          (l.map (·.id)).filter fun i => decide (i ∉ acc.map (·.id)) := fun a ha =>
      List.filter_congr fun i hi => by simp only [ha i hi]
    rcases uniqueStep_cases acc v with ⟨h1, h2⟩ | ⟨h1, h2⟩
    · rw [h2, hc _ fun i hi => by
        rw [List.map_append, List.mem_append, List.map_singleton, List.mem_singleton, or_iff_left]
        rintro rfl
        exact h.1 hi]
      rw [List.map_cons, List.filter_cons, if_pos (by simpa using h1)]
      simp
    · rw [h2, List.map_cons, List.filter_cons, if_neg (by simpa using h1)]

theorem Mono.mulMono_writing {m r : Mono R} (hm : m.Canon) (hr : r.Canon) :
    Go.Ok (m.mulMono r) (fun p => p.Canon ∧ p.writing = m.writing.mul r.writing ∧ p.degs = m.degs + r.degs ∧
      p.coeff = GoNum.mul m.coeff r.coeff) :=
  (Mono.mulMono_ok hm hr).mono fun p ⟨h1, h2, h3, _, h5⟩ => by
    refine ⟨h1, writing_mul hm hr h1 h2 ?_, h2, h3⟩
    show p.vars.map _ = _
    rw [h5]
    unfold uniqueVars
    rw [List.foldl_append, show m.vars.foldl uniqueStep [] = m.vars from uniqueVars_of_nodup hm.nodup,
      uniqueFold_ids _ _ hr.nodup]
    rfl

theorem Mono.mulVar_writing {m : Mono R} (hm : m.Canon) {v : Var R} (hv : v.OK) :
    (m.mulVar v).writing = m.writing.mul v.toMono.writing := by
  obtain ⟨h1, h2, -, -⟩ := Mono.mulVar_spec hm hv
  refine writing_mul hm (Scalar.terms_canon (s := .var v) hv _ (List.mem_singleton.mpr rfl)) h1 ?_ ?_
  · rw [h2]
    congr 1
    exact (Var.degs_one v (GoNum.one : R) 1).symm
  · unfold Mono.mulVar
    cases h : findVar v m.vars with
    | none =>
      have hn := findVar_eq_none.mp h
      simp only [Mono.writing, Writing.mul, Var.toMono, List.map_cons, List.map_nil, List.map_append]
      rw [List.filter_cons, if_pos (by simpa using hn), List.filter_nil]
    | some i =>
      obtain ⟨w, hw, hid⟩ := findVar_some h
      have hn : v.id ∈ m.vars.map (·.id) := List.mem_map.mpr ⟨w, List.mem_of_getElem? hw, hid⟩
      simp only [Mono.writing, Writing.mul, Var.toMono, List.map_cons, List.map_nil]
      rw [List.filter_cons, if_neg (by simpa using hn), List.filter_nil, List.append_nil]

end

section
variable {R : Type} [Field R] [LinearOrder R] {W W1 W2 W3 : Set Writing}

/-- The polynomial of a term with coefficient one. -/
noncomputable def denW (R : Type) [Field R] (w : Writing) : MvPolynomial ℕ R := monomial w.degs 1

theorem respects_den (h : Consistent W) : Respects W (denW R) := fun w hw w' hw' e => by
  unfold denW
  rw [h w hw w' hw' e]

theorem llin_den (l : List (Mono R)) : llin (denW R) l = lden l := by
  induction l with
  | nil => rfl
  | cons m l ih =>
    rw [llin_cons, lden_cons, ih]
    congr 1
    unfold denW Mono.den
    rw [m.writing_degs, smul_monomial, smul_eq_mul, mul_one]

theorem lin_den (s : Scalar R) : s.lin (denW R) = s.den := by
  rw [Scalar.lin, llin_den, ← toPoly_den]
  cases s <;> rfl

/-- Well formed, written as in `W`, and denoting `f`. -/
abbrev DenW (W : Set Writing) (f : MvPolynomial ℕ R) (s : Scalar R) : Prop := SemW W (denW R) f s

theorem DenW.den {f : MvPolynomial ℕ R} {s : Scalar R} (h : DenW W f s) : s.den = f := (lin_den s).symm.trans h.lin

theorem denW_of {s : Scalar R} (h : s.Canon) (hw : s.WrittenIn W) : DenW W s.den s := ⟨h, hw, lin_den s⟩

theorem ProdW.symm (h : ProdW W1 W2 W3) : ProdW W2 W1 W3 := ⟨h.2, h.1⟩

theorem GoodW.mem {m : Mono R} {l : List (Mono R)} (h : GoodW W l) (hm : m ∈ l) :
    m.writing ∈ insert ([], []) W := by
  by_cases hv : m.vars = []
  · exact Or.inl (Mono.writing_const (h m hm).1 hv)
  · exact Or.inr ((h m hm).2 hv)

/-- A product of two terms. -/
theorem goodW_mul (hp : ProdTo W1 W2 W3) {m r p : Mono R} (hm : GoodW W1 [m]) (hr : GoodW W2 [r]) (hc : p.Canon)
    (hw : p.writing = m.writing.mul r.writing) : p.Canon ∧ (p.vars ≠ [] → p.writing ∈ W3) := by
  refine ⟨hc, fun hv => ?_⟩
  have h1 := hm.mem (List.mem_singleton.mpr rfl)
  have h2 := hr.mem (List.mem_singleton.mpr rfl)
  have hne : p.writing.1 ≠ [] := by simpa [Mono.writing] using hv
  rw [hw] at hne ⊢
  exact hp _ h1 _ h2 hne

theorem GoodW.one {m : Mono R} {l : List (Mono R)} (h : GoodW W l) (hm : m ∈ l) : GoodW W [m] := by
  intro m' hm'
  rw [List.mem_singleton.mp hm']
  exact h m hm

theorem GoodW.weaken {l : List (Mono R)} (h : GoodW W l) (hW : W ⊆ W1) : GoodW W1 l :=
  fun m hm => ⟨(h m hm).1, fun hv => hW ((h m hm).2 hv)⟩

theorem SemW.weaken {M : Type} [AddCommGroup M] [Module R M] {μ : Writing → M} {f : M} {s : Scalar R}
    (h : SemW W μ f s) (hW : W ⊆ W1) : SemW W1 μ f s :=
  ⟨h.canon, fun m hm hv => hW (h.written m hm hv), h.lin⟩

theorem Poly.mulVar_den' (h : ProdTo W1 W2 W3) (hW : Consistent W3) {p : Poly R} (hne : p.monos ≠ [])
    (hp : GoodW W1 p.monos) {v : Var R} {g : MvPolynomial ℕ R} (hv : DenW W2 g (.var v)) :
    Go.Ok (p.mulVar v) (DenW W3 (lden p.monos * g)) := by
  have ov : v.OK := hv.canon
  have hg := hv.den
  unfold Poly.mulVar
  rw [GoodL.check hne hp.univ, ov.check, Go.ok_bind, Go.ok_bind, ← hg, Scalar.den_var,
    ← lden_map (fun m hm => Mono.mulVar_den (hp m hm).1 ov), ← llin_den]
  refine Poly.asSimplified_sem (p := ⟨_⟩) (respects_den hW) (by simpa using hne) ?_
  intro m hm
  obtain ⟨x, hx, rfl⟩ := List.mem_map.mp hm
  have hx' := hp x hx
  exact goodW_mul h (hp.one hx) (r := v.toMono) hv.goodW (Mono.mulVar_spec hx'.1 ov).1
    (Mono.mulVar_writing hx'.1 ov)

theorem forall₂_goodW {Q : Mono R → Mono R → Prop} {l l' : List (Mono R)} (h : List.Forall₂ Q l l')
    (hQ : ∀ a b, Q a b → b.Canon ∧ (b.vars ≠ [] → b.writing ∈ W)) : GoodW W l' := by
  induction h with
  | nil => intro m hm; cases hm
  | cons h _ ih =>
    intro m hm
    rcases List.mem_cons.mp hm with rfl | hm
    · exact hQ _ _ h
    · exact ih m hm

theorem Poly.mulMono_den' (h : ProdTo W1 W2 W3) (hW : Consistent W3) {p : Poly R} (hne : p.monos ≠ [])
    (hp : GoodW W1 p.monos) {r : Mono R} (hr : GoodW W2 [r]) :
    Go.Ok (p.mulMono r) (DenW W3 (lden p.monos * r.den)) := by
  have cr := (hr r (List.mem_singleton.mpr rfl)).1
  unfold Poly.mulMono
  rw [GoodL.check hne hp.univ, cr.check, Go.ok_bind, Go.ok_bind]
  refine (Go.mapM_ok _ (fun m p => (p.Canon ∧ (p.vars ≠ [] → p.writing ∈ W3)) ∧ p.den = m.den * r.den) p.monos
    (fun m hm => (Mono.mulMono_writing (hp m hm).1 cr).mono fun q ⟨h1, h2, h3, h4⟩ =>
      ⟨goodW_mul h (hp.one hm) hr h1 h2, den_mul_of_degs h3 h4⟩)).bind ?_
  intro ms hms
  have : lden ms = lden p.monos * r.den := lden_forall₂ (hms.imp (fun _ _ hh => hh.2))
  rw [← this, ← llin_den]
  exact Poly.asSimplified_sem (p := ⟨ms⟩) (respects_den hW) (forall₂_ne hms hne)
    (forall₂_goodW hms fun _ _ h => h.1)

theorem denW_zero : DenW W (0 : MvPolynomial ℕ R) (.k GoNum.zero) := by
  have := semW_k (W := W) (μ := denW R) (0 : R)
  rwa [zero_smul] at this

theorem denW_k (c : R) : DenW W (C c) (.k c) := denW_of (s := .k c) trivial (semW_k (μ := denW R) c).written

theorem Poly.mulPoly_den' (h : ProdTo W1 W2 W3) (hW : Consistent W3) {p q : Poly R} (hne : p.monos ≠ [])
    (hp : GoodW W1 p.monos) (hne' : q.monos ≠ []) (hq : GoodW W2 q.monos) :
    Go.Ok (p.mulPoly q) (DenW W3 (lden p.monos * lden q.monos)) := by
  unfold Poly.mulPoly
  rw [GoodL.check hne hp.univ, GoodL.check hne' hq.univ, Go.ok_bind, Go.ok_bind]
  refine (Go.foldlM_ok' _ (fun pre s => DenW W3 (lden p.monos * lden pre) s) _ (Scalar.k GoNum.zero)
    ?_ ?_).bind (fun _ h => Scalar.asSimplified_sem (respects_den hW) h)
  · rw [lden_nil, mul_zero]
    exact denW_zero
  rintro pre r acc ⟨post, hpost⟩ hacc
  have hr : r ∈ q.monos := by rw [hpost]; simp
  refine (Poly.mulMono_den' h hW hne hp (hq.one hr)).bind (fun s hs => ?_)
  refine (Scalar.plus_sem (respects_den hW) hacc hs).mono (fun t ht => ?_)
  have e : lden p.monos * lden (pre ++ [r]) = lden p.monos * lden pre + lden p.monos * r.den := by
    rw [lden_append, lden_cons, lden_nil]
    ring
  rw [e]
  exact ht

theorem denW_mono {m : Mono R} (h : GoodW W [m]) : DenW W m.den (.mono m) :=
  denW_of (s := .mono m) (h m (List.mem_singleton.mpr rfl)).1 (fun m' hm => (h m' hm).2)

theorem goodW_self {m : Mono R} (h : m.Canon ∧ (m.vars ≠ [] → m.writing ∈ W)) : GoodW W [m] := by
  intro m' hm'
  rw [List.mem_singleton.mp hm']
  exact h

theorem Writing.nil_mul {w : Writing} (hl : w.2.length = w.1.length) (hn : w.1.Nodup) :
    Writing.mul ([], []) w = w ∧ w.mul ([], []) = w := by
  have h0 : ∀ i, Writing.exp ([], []) i = 0 := fun _ => rfl
  unfold Writing.mul
  simp only [h0, zero_add, add_zero, List.nil_append, List.not_mem_nil, not_false_eq_true, decide_true,
    List.filter_true, List.filter_nil, List.append_nil]
  refine ⟨Prod.ext rfl (exps_eq hl hn), Prod.ext rfl (exps_eq hl hn)⟩

theorem Mono.Canon.lenW {m : Mono R} (h : m.Canon) : m.writing.2.length = m.writing.1.length := by
  show m.exps.length = (m.vars.map _).length
  rw [List.length_map]
  exact h.len

theorem SemW.left (h : ProdTo W1 W2 W3) {f : MvPolynomial ℕ R} {s : Scalar R} (hs : DenW W1 f s) : DenW W3 f s := by
  refine ⟨hs.canon, fun m hm hv => ?_, hs.lin⟩
  have hc := Scalar.terms_canon hs.canon m hm
  have e := (Writing.nil_mul hc.lenW hc.nodup).2
  have := h _ (Or.inr (hs.written m hm hv)) _ (Or.inl rfl) (by rw [e]; simpa [Mono.writing] using hv)
  rwa [e] at this

theorem SemW.right (h : ProdTo W1 W2 W3) {f : MvPolynomial ℕ R} {s : Scalar R} (hs : DenW W2 f s) : DenW W3 f s := by
  refine ⟨hs.canon, fun m hm hv => ?_, hs.lin⟩
  have hc := Scalar.terms_canon hs.canon m hm
  have e := (Writing.nil_mul hc.lenW hc.nodup).1
  have := h _ (Or.inl rfl) _ (Or.inr (hs.written m hm hv)) (by rw [e]; simpa [Mono.writing] using hv)
  rwa [e] at this

theorem Mono.mul_den' (h : ProdTo W1 W2 W3) (hW : Consistent W3) {m : Mono R} (hm : GoodW W1 [m])
    {e : Scalar R} {g : MvPolynomial ℕ R} (he : DenW W2 g e)
    (hs : (Scalar.mono m).Swaps e → ProdTo W2 W1 W3) : Go.Ok (m.mul e) (DenW W3 (m.den * g)) := by
  have cm := (hm m (List.mem_singleton.mpr rfl)).1
  have hg := he.den
  unfold Mono.mul
  rw [cm.check, he.good.check, Go.ok_bind, Go.ok_bind]
  cases e with
  | k c =>
    rw [← hg, Scalar.den_k, ← Mono.mulK_den]
    exact Go.ok_pure (SemW.left h (denW_mono (m := m.mulK c) (hm.mulK c)))
  | var v =>
    have ov : v.OK := he.canon
    rw [← hg, Scalar.den_var, ← Mono.mulVar_den cm ov]
    exact Go.ok_pure (denW_mono (goodW_self (goodW_mul h hm (r := v.toMono) he.goodW (Mono.mulVar_spec cm ov).1
      (Mono.mulVar_writing cm ov))))
  | mono r =>
    refine (Mono.mulMono_writing cm he.canon).bind fun p ⟨h1, h2, h3, h4⟩ => Go.ok_pure ?_
    rw [← hg, Scalar.den_mono, ← den_mul_of_degs h3 h4]
    exact denW_mono (goodW_self (goodW_mul h hm (r := r) he.goodW h1 h2))
  | poly p =>
    rw [mul_comm, ← hg]
    exact Poly.mulMono_den' (hs trivial) hW he.canon.1 he.goodW hm

theorem Poly.mul_den' (h : ProdTo W1 W2 W3) (hW : Consistent W3) {p : Poly R} {f g : MvPolynomial ℕ R}
    (hp : DenW W1 f (.poly p)) {e : Scalar R} (he : DenW W2 g e) : Go.Ok (p.mul e) (DenW W3 (f * g)) := by
  have hf : lden p.monos = f := hp.den
  have hg := he.den
  cases e with
  | k c =>
    have := Poly.mulK_sem (respects_den (R := R) hW) hp.canon.1 (SemW.left h hp).goodW c
    have e : llin (denW R) p.monos = f := (llin_den p.monos).trans hf
    rwa [e, smul_eq_C_mul, mul_comm,
      show C c = g from hg] at this
  | var v => rw [← hf]; exact Poly.mulVar_den' h hW hp.canon.1 hp.goodW he
  | mono m => rw [← hf, ← hg]; exact Poly.mulMono_den' h hW hp.canon.1 hp.goodW he.goodW
  | poly q => rw [← hf, ← hg]; exact Poly.mulPoly_den' h hW hp.canon.1 hp.goodW he.canon.1 he.goodW

theorem Var.mul_den' (h : ProdTo W1 W2 W3) (hW : Consistent W3) {v : Var R} {f g : MvPolynomial ℕ R}
    (hv : DenW W1 f (.var v)) {e : Scalar R} (he : DenW W2 g e)
    (hs : (Scalar.var v).Swaps e → ProdTo W2 W1 W3) : Go.Ok (v.mul e) (DenW W3 (f * g)) := by
  have hμ := respects_den (R := R) hW
  have ov : v.OK := hv.canon
  have hf : X v.id = f := hv.den
  have hg := he.den
  have gv : GoodW W1 [v.toMono] := hv.goodW
  have cv : v.toMono.Canon := (gv _ (List.mem_singleton.mpr rfl)).1
  cases e with
  | k c =>
    have := (Scalar.mul_k_sem hμ (SemW.left h hv) c).1
    rwa [smul_eq_C_mul, mul_comm, show C c = g from hg] at this
  | var w =>
    have ow : w.OK := he.canon
    have gw : GoodW W2 [w.toMono] := he.goodW
    have cw : w.toMono.Canon := (gw _ (List.mem_singleton.mpr rfl)).1
    have hg : X w.id = g := hg
    unfold Var.mul
    rw [ov.check, he.good.check, Go.ok_bind, Go.ok_bind]
    simp only [Go.pure_eq, Go.ok_bind]
    have gv' : Good (fun _ => True) Set.univ (.var v) := hv.good
    have gw' : Good (fun _ => True) Set.univ (.var w) := he.good
    split
    · rename_i e
      have c2 := (goodM_two (R := R) prodIn_univ gv' gw' e).canon
      have hd : (⟨GoNum.one, [2], [v]⟩ : Mono R).den = f * g := by
        rw [← hf, ← hg, Mono.den_eq_prod]
        simp [e, pow_two]
      rw [← hd]
      refine Scalar.asSimplified_sem (s := .mono _) hμ (denW_mono (goodW_self (goodW_mul h gv gw c2 ?_)))
      simp [Mono.writing, Writing.mul, Var.toMono, Writing.exp, e]
    · rename_i e
      have c2 := (goodM_vw (R := R) prodIn_univ gv' gw' e).canon
      have hd : (⟨GoNum.one, [1, 1], [v, w]⟩ : Mono R).den = f * g := by
        rw [← hf, ← hg, Mono.den_eq_prod]
        simp
      rw [← hd]
      refine Scalar.asSimplified_sem (s := .mono _) hμ (denW_mono (goodW_self (goodW_mul h gv gw c2 ?_)))
      have e' : ¬ v.id = w.id := fun x => e x.symm
      simp [Mono.writing, Writing.mul, Var.toMono, Writing.exp, e, e']
  | mono m =>
    unfold Var.mul
    rw [ov.check, he.good.check, Go.ok_bind, Go.ok_bind]
    refine (Mono.mul_den' (hs trivial) hW he.goodW hv fun h => h.elim).bind (fun _ h => ?_)
    rw [mul_comm, show m.den = g from hg] at h
    exact Scalar.asSimplified_sem hμ h
  | poly p =>
    unfold Var.mul
    rw [ov.check, he.good.check, Go.ok_bind, Go.ok_bind]
    refine (Poly.mulVar_den' (hs trivial) hW he.canon.1 he.goodW hv).bind (fun _ h => ?_)
    rw [mul_comm, show lden p.monos = g from hg] at h
    exact Scalar.asSimplified_sem hμ h

/-- `Multiply` multiplies the denotations. -/
theorem Scalar.mul_ordered (h : ProdTo W1 W2 W3) (hW : Consistent W3) {a b : Scalar R} {f g : MvPolynomial ℕ R}
    (ha : DenW W1 f a) (hb : DenW W2 g b) (hs : a.Swaps b → ProdTo W2 W1 W3) :
    Go.Ok (a.mul b) (DenW W3 (f * g)) := by
  have hf := ha.den
  cases a with
  | k c =>
    have := (Scalar.mul_k_sem (respects_den hW) (SemW.right h hb) c).2
    rwa [smul_eq_C_mul, show C c = f from hf] at this
  | var v => exact Var.mul_den' h hW ha hb hs
  | mono m => rw [← hf]; exact Mono.mul_den' h hW ha.goodW hb hs
  | poly p => exact Poly.mul_den' h hW ha hb

theorem Scalar.mul_den' (h : ProdW W1 W2 W3) (hW : Consistent W3) {a b : Scalar R} {f g : MvPolynomial ℕ R}
    (ha : DenW W1 f a) (hb : DenW W2 g b) : Go.Ok (a.mul b) (DenW W3 (f * g)) :=
  Scalar.mul_ordered h.1 hW ha hb fun _ => h.2

/-! ## Arrays -/

theorem semW_toPoly {M : Type} [AddCommGroup M] [Module R M] {μ : Writing → M} {f : M} {a : Scalar R}
    (h : SemW W μ f a) : SemW W μ f (.poly a.toPoly) := by
  have e : a.toPoly.monos = a.terms := by cases a <;> rfl
  refine ⟨(good_iff.mp (good_toPoly h.good)).1, ?_, ?_⟩
  · intro m hm
    exact h.written m (e ▸ hm)
  · rw [← h.lin]
    show llin μ a.toPoly.monos = _
    rw [e]
    rfl

theorem semW_toMono {M : Type} [AddCommGroup M] [Module R M] {μ : Writing → M} {f : M} {a : Scalar R} {m : Mono R}
    (h : SemW W μ f a) (hm : a.toMono = .ok m) : SemW W μ f (.mono m) := by
  have e : a.terms = [m] := by
    cases a <;> cases hm <;> rfl
  refine ⟨(good_iff.mp (good_toMono h.good hm)).1, ?_, ?_⟩
  · intro m' hm'
    exact h.written m' (by rw [e]; exact hm')
  · rw [← h.lin]
    show _ = llin μ a.terms
    rw [e]
    rfl

theorem stable_sem {M : Type} [AddCommGroup M] [Module R M] {μ : Writing → M} (hμ : Respects W μ) (f : M) :
    Stable (SemW (R := R) W μ f) where
  check _ h := h.good.check
  poly _ h := semW_toPoly h
  mono _ _ h hm := semW_toMono h hm
  simp _ h := Scalar.asSimplified_sem hμ h

theorem addSem_written {M : Type} [AddCommGroup M] [Module R M] {μ : Writing → M} (hμ : Respects W μ) :
    AddSem (SemW (R := R) W μ) where
  stable := stable_sem hμ
  add hx hy := Scalar.plus_sem hμ hx hy
  scale {f d} h := by
    rwa [show GoNum.mul d GoNum.one = d from mul_one d]
  num {f g x d} hx hd := by
    have e1 : x • μ ([], []) = f := (llin_const x).symm.trans hx.lin
    have e2 : d • μ ([], []) = g := (llin_const d).symm.trans hd.lin
    have := semW_k (W := W) (μ := μ) (d + x)
    rw [add_smul, e1, e2, add_comm g f] at this
    rwa [show GoNum.mul d GoNum.one = d from mul_one d]
  cons {f g m p} hm hp := by
    have g1 : GoodW W (m :: p.monos) := hm.goodW.append hp.goodW
    refine ⟨?_, ?_⟩
    · obtain ⟨q, hq, -⟩ := Poly.simplify_ok (p := ⟨m :: p.monos⟩) (by simp) g1.univ
      exact ⟨q, hq⟩
    · have := semW_poly (μ := μ) (by simp) g1
      have e1 : llin μ [m] = f := hm.lin
      have e2 : llin μ p.monos = g := hp.lin
      rwa [show m :: p.monos = [m] ++ p.monos from rfl, llin_append, e1, e2] at this

theorem mulSem_written (h : ProdW W1 W2 W3) (hW : Consistent W3) :
    MulSem (DenW (R := R) W1) (DenW W2) (DenW W3) where
  left h := ⟨h.good.check, semW_toPoly h⟩
  right h := h.good.check
  sum := addSem_written (respects_den hW)
  zero := denW_zero
  zadd h := by rwa [zero_add]
  mul hx hy := Scalar.mul_den' h hW hx hy
  mul' {f g x y} hx hy := by
    rw [mul_comm f g]
    exact Scalar.mul_den' h.symm hW hy hx
  num {f g x d} hx hd := by
    have e1 : C x = f := hx.den
    have e2 : C d = g := hd.den
    have := denW_k (W := W3) (d * x)
    rwa [C_mul, e1, e2, mul_comm] at this
  mono {f g m d} hm hd := by
    have e1 : m.den = f := hm.den
    have e2 : C d = g := hd.den
    have := denW_mono ((SemW.left h.1 hm).goodW.mulK d)
    rwa [Mono.mulK_den, e1, e2] at this

theorem prodW_const (hW : ∀ w ∈ W, w.2.length = w.1.length ∧ w.1.Nodup) : ProdW W ∅ W := by
  constructor
  · rintro w hw w' (rfl | h) hne
    · rcases hw with rfl | hw
      · exact absurd rfl hne
      · rw [(Writing.nil_mul (hW w hw).1 (hW w hw).2).2]
        exact hw
    · cases h
  · rintro w (rfl | h) w' hw hne
    · rcases hw with rfl | hw
      · exact absurd rfl hne
      · rw [(Writing.nil_mul (hW w' hw).1 (hW w' hw).2).1]
        exact hw
    · cases h

end

end Verif
