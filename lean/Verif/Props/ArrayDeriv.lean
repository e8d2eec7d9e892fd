import Verif.Props.ArraySubst
import Verif.Props.Deriv

/-!
# C11: differentiation of vectors and matrices (returned value)

Constants, vectors and matrices of variables, and matrices of monomials are differentiated entry by
entry.  `MonomialVector.DerivativeWrt` differentiates every entry twice and keeps the second result;
`PolynomialVector` and `PolynomialMatrix` panic when the derivative of an entry is constant zero.
-/

set_option linter.unusedSectionVars false

namespace Verif

open MvPolynomial

variable {R : Type} {r k n : ℕ}

/-- The kinds whose `DerivativeWrt` treats every entry by itself. -/
def Expr.DerivDirect : Expr R → Prop
  | .s _ => True
  | .v (.k _) => True
  | .v (.v _) => True
  | .m (.k _) => True
  | .m (.v _) => True
  | .m (.m _) => True
  | _ => False

section Struct
variable [GoNum R]

theorem newVecDense_of {l : List R} (h : l ≠ []) : newVecDense l = .ok l := by
  unfold newVecDense
  rw [if_neg h]; rfl

theorem Expr.derivative_ok {e : Expr R} {v : Var R} {Q Q' : ℕ → ℕ → Scalar R → Prop}
    (hr : 0 < r) (hk : 0 < k) (hd : e.DerivDirect) (h : EArr r k Q e)
    (hca : ∀ i j x, Q i j x → x.check = .ok ())
    (hv : v.check = .ok ()) (hconv : ∀ i j, i < r → j < k → Conv (Q' i j))
    (hop : ∀ i j x, i < r → j < k → Q i j x → Go.Ok (x.derivative v) (Q' i j)) :
    Go.Ok (e.derivative v) (fun e' => EArr r k Q' e' ∧ SameKind e e') := by
  have hvar : ∀ i j w, i < r → j < k → Q i j (.var w) →
      Q' i j (.k (if w.id = v.id then GoNum.one else GoNum.zero)) := by
    intro i j w hi hj hw
    obtain ⟨b, h1, h2⟩ := hop i j _ hi hj hw
    have hwc : w.check = .ok () := hca i j _ hw
    simp only [Scalar.derivative, hwc, hv, Go.ok_bind, Go.pure_eq] at h1
    split at h1 <;> (cases h1; simpa only [*, if_true, if_false] using h2)
  have hconst : ∀ i j c, i < r → j < k → Q i j (.k c) → Q' i j (.k GoNum.zero) := by
    intro i j c hi hj hc
    obtain ⟨b, h1, h2⟩ := hop i j _ hi hj hc
    cases h1
    exact h2
  match e, hd with
  | .s a, _ =>
    have h1 : 1 = r := h.1
    have h2 := Arr.rowLen h (row := [a]) (by simp [Expr.grid])
    simp only [List.length_singleton] at h2
    subst h1 h2
    obtain ⟨b, h1, h2⟩ := hop 0 0 a (by decide) (by decide) (earr_s_iff.mp h)
    refine ⟨.s b, ?_, earr_s h2, trivial⟩
    show (do return Expr.s (← a.derivative v) : Go (Expr R)) = _
    rw [h1]; rfl
  | .v (.k l), _ =>
    obtain rfl : k = 1 := earr_v_cols hr h
    have h' := LArr.map_iff.mp (earr_v_iff.mp h)
    have hne : l.map (fun _ => (GoNum.zero : R)) ≠ [] := by
      intro h0
      have : l.length = 0 := by simpa using congrArg List.length h0
      have h2 : l.length = r := h'.1
      omega
    refine ⟨.v (.k (l.map fun _ => GoNum.zero)), ?_, ?_, trivial⟩
    · show (do return Expr.v (← (do return .k (← newVecDense (l.map (fun _ => GoNum.zero))))) : Go (Expr R)) = _
      rw [newVecDense_of hne]; rfl
    · refine earr_v_iff.mpr ?_
      show LArr r _ ((l.map fun _ => GoNum.zero).map Scalar.k)
      rw [List.map_map]
      exact h'.map fun i c hi hc => hconst i 0 c hi (by decide) hc
  | .v (.v l), _ =>
    obtain rfl : k = 1 := earr_v_cols hr h
    have h' := LArr.map_iff.mp (earr_v_iff.mp h)
    have hne : l.map (fun w => if w.id = v.id then (GoNum.one : R) else GoNum.zero) ≠ [] := by
      intro h0
      have : l.length = 0 := by simpa using congrArg List.length h0
      have h2 : l.length = r := h'.1
      omega
    refine ⟨.v (.k (l.map fun w => if w.id = v.id then GoNum.one else GoNum.zero)), ?_, ?_, trivial⟩
    · show (do return Expr.v (← (do
        Vec.check (.v l)
        v.check
        return .k (← newVecDense (l.map (fun w => if w.id = v.id then GoNum.one else GoNum.zero))))) :
          Go (Expr R)) = _
      rw [VArr.check (a := .v l) (earr_v_iff.mp h) hr (fun i x hx => hca i 0 x hx), hv, newVecDense_of hne]
      rfl
    · refine earr_v_iff.mpr ?_
      show LArr r _ ((l.map _).map Scalar.k)
      rw [List.map_map]
      exact h'.map fun i w hi hw => hvar i 0 w hi (by decide) hw
  | .m (.k g), _ =>
    have h' := Arr.map_iff.mp (earr_m_iff.mp h)
    refine ⟨.m (.k (List.replicate r (List.replicate k GoNum.zero))), ?_, ?_, trivial⟩
    · show (do return Expr.m (← (do
        let d ← rowDims g
        if d.2 = 0 then throw .empty
        return .k (List.replicate d.1 (List.replicate d.2 GoNum.zero)))) : Go (Expr R)) = _
      rw [h'.rowDims hr]
      simp only [Go.ok_bind, Nat.pos_iff_ne_zero.mp hk, if_false, Go.pure_eq]
    · refine earr_m_iff.mpr (Arr.map_iff.mpr ?_)
      refine ⟨by simp, fun i row hi => ⟨?_, fun j c hj => ?_⟩⟩
      · rw [List.getElem?_replicate] at hi
        split at hi
        · cases hi; simp
        · cases hi
      · rw [List.getElem?_replicate] at hi
        split at hi
        · next hlt =>
          cases hi
          rw [List.getElem?_replicate] at hj
          split at hj
          · next hlt' =>
            cases hj
            obtain ⟨row, h1, h2⟩ := LArr.get h' hlt
            obtain ⟨c, h3, h4⟩ := h2.get hlt'
            exact hconst i j c hlt hlt' h4
          · cases hj
        · cases hi
  | .m (.v g), _ =>
    have h' := Arr.map_iff.mp (earr_m_iff.mp h)
    refine ⟨.m (.k (g.map (·.map (fun w => if w.id = v.id then GoNum.one else GoNum.zero)))), ?_, ?_, trivial⟩
    · show (do return Expr.m (← (do
        let d ← Mat.dims (.v g)
        if d.2 = 0 then throw .empty
        return .k (g.map (·.map (fun w => if w.id = v.id then GoNum.one else GoNum.zero))))) : Go (Expr R)) = _
      rw [MArr.dims (a := .v g) (earr_m_iff.mp h) hr hca]
      simp only [Go.ok_bind, Nat.pos_iff_ne_zero.mp hk, if_false, Go.pure_eq]
    · refine earr_m_iff.mpr (Arr.map_iff.mpr ?_)
      exact h'.map fun i j w hi hj hw => hvar i j w hi hj hw
  | .m (.m g), _ =>
    have h' := Arr.map_iff.mp (earr_m_iff.mp h)
    have hmain : Go.Ok (do
        Mat.check (.m g)
        v.check
        concretizeMat (← g.mapM (·.mapM (fun m => m.derivative v))) : Go (Mat R)) (MArr r k Q') := by
      rw [MArr.check (a := .m g) (earr_m_iff.mp h) hr hca, hv, Go.ok_bind, Go.ok_bind]
      exact Go.Ok.bind (Arr.mapM (Q' := Q') h' fun i j m hi hj hm => hop i j (.mono m) hi hj hm)
        fun l hl => concretizeMat_conv hl hr hconv
    obtain ⟨b, h1, h2⟩ := hmain
    refine ⟨.m b, ?_, earr_m_iff.mpr h2, trivial⟩
    show (do return Expr.m (← Mat.derivative (.m g) v) : Go (Expr R)) = _
    unfold Mat.derivative
    simp only [h1, Go.ok_bind, Go.pure_eq]

/-- C11, structural part, for the direct kinds: same shape, well formed, no new variables. -/
theorem derivative_array_total {e : Expr R} {v : Var R} (hr : 0 < r) (hk : 0 < k) (he : e.Canon)
    (hs : e.Shape r k) (hd : e.DerivDirect) (hv : v.OK) :
    ∃ e', e.derivative v = .ok e' ∧ e'.Shape r k ∧ e'.Canon ∧ SameKind e e' ∧
      ∀ w, e'.Mentions w → e.Mentions w := by
  obtain ⟨e', h1, h2, h3⟩ := Expr.derivative_ok (v := v)
    (Q' := fun _ _ => Good e.Mentions Set.univ) hr hk hd
    (egood_of hs he fun w hw => hw) (fun _ _ _ h => h.check) hv.check
    (fun _ _ _ _ => stable_good.toConv) (fun i j x _ _ hx => by
      obtain ⟨y, h1, h2, h3⟩ := derivative_total (good_iff.mp hx).1 hv
      exact ⟨y, h1, good_mentions h2 y.termsIn_univ fun w hw => (good_iff.mp hx).2.2 w (h3 w hw)⟩)
  obtain ⟨h4, h5, h6⟩ := egood_spec h2
  exact ⟨e', h1, h4, h5, h3, h6⟩

/-! ## Vectors of monomials -/

theorem Mono.afterDerivative_small {m : Mono R} (hm : m.Canon) {v : Var R} (h : m.degs v.id ≤ 1) :
    m.afterDerivative v = m := by
  unfold Mono.afterDerivative
  cases hf : findVar v m.vars with
  | none => rfl
  | some i =>
    obtain ⟨w, hw, hwv⟩ := findVar_some hf
    have hie : i < m.exps.length := by rw [hm.len]; exact findVar_lt hf
    have he : m.exps[i]? = some m.exps[i] := List.getElem?_eq_getElem hie
    have hpos : 0 < m.exps[i] := hm.pos _ (List.getElem_mem hie)
    have hdv : m.degs v.id = m.exps[i].toNat := by
      rw [← hwv]
      apply hm.degs_apply
      rw [List.mem_iff_getElem?]
      exact ⟨i, List.getElem?_zip_eq_some.mpr ⟨hw, he⟩⟩
    have h1 : m.exps[i] = 1 := by omega
    simp only [he, h1, if_true]

theorem Mono.afterDerivative_large {m : Mono R} (hm : m.Canon) {v : Var R} (h : 2 ≤ m.degs v.id) :
    (m.afterDerivative v).Canon ∧ (m.afterDerivative v).coeff = m.coeff ∧
      (m.afterDerivative v).vars = m.vars ∧
      (m.afterDerivative v).degs + Finsupp.single v.id 1 = m.degs := by
  unfold Mono.afterDerivative
  cases hf : findVar v m.vars with
  | none =>
    rw [Mono.degs_apply_notMem hm.len (findVar_eq_none.mp hf)] at h
    omega
  | some i =>
    obtain ⟨w, hw, hwv⟩ := findVar_some hf
    have hie : i < m.exps.length := by rw [hm.len]; exact findVar_lt hf
    have he : m.exps[i]? = some m.exps[i] := List.getElem?_eq_getElem hie
    have hpos : 0 < m.exps[i] := hm.pos _ (List.getElem_mem hie)
    have hdv : m.degs v.id = m.exps[i].toNat := by
      rw [← hwv]
      apply hm.degs_apply
      rw [List.mem_iff_getElem?]
      exact ⟨i, List.getElem?_zip_eq_some.mpr ⟨hw, he⟩⟩
    have h1 : ¬ m.exps[i]? = some 1 := by
      rw [he, Option.some.injEq]
      omega
    simp only [if_neg h1]
    refine ⟨⟨?_, ?_, hm.nodup, hm.ok⟩, ?_, ?_, ?_⟩
    · simp only [List.length_modify, hm.len]
    · intro e hmem
      rcases mem_of_mem_modify hmem with h' | ⟨y, hy, rfl⟩
      · exact hm.pos e h'
      · rw [he, Option.some.injEq] at hy
        subst hy
        omega
    · trivial
    · trivial
    · have := pdegs_zip_modify_sub hm.len hw he hpos
      rw [hwv] at this
      exact this

theorem Mono.afterDerivative_canon {m : Mono R} (hm : m.Canon) {v : Var R} :
    (m.afterDerivative v).Canon ∧ (m.afterDerivative v).vars = m.vars := by
  by_cases h : m.degs v.id ≤ 1
  · rw [Mono.afterDerivative_small hm h]; exact ⟨hm, rfl⟩
  · have := Mono.afterDerivative_large hm (v := v) (by omega)
    exact ⟨this.1, this.2.2.1⟩

theorem Mono.derivative_kind {m : Mono R} (hm : m.Canon) {v : Var R} (hv : v.OK) {x y : Scalar R}
    (hx : m.derivative v = .ok x) (hy : (m.afterDerivative v).derivative v = .ok y)
    (hmono : x.isMono = false) : ∃ c, y = .k c := by
  obtain ⟨x', h1, h2⟩ := Mono.derivative_ok hm hv
  rw [hx, Except.ok.injEq] at h1
  subst h1
  have hsmall : m.degs v.id ≤ 1 := by
    cases h2 with
    | absent h => rw [Mono.degs_apply_notMem hm.len h]; omega
    | linear w hvs hes hw =>
      rcases m with ⟨c, es, vs⟩
      simp only at hvs hes
      subst hvs hes
      rw [Var.degs_one]
      simp [hw]
    | erase => cases hmono
    | dec => cases hmono
  rw [Mono.afterDerivative_small hm hsmall, hx, Except.ok.injEq] at hy
  subst hy
  cases h2 with
  | absent => exact ⟨_, rfl⟩
  | linear => exact ⟨_, rfl⟩
  | erase => cases hmono
  | dec => cases hmono

/-- `MonomialVector.DerivativeWrt`: the second derivatives of the entries, each converted. -/
theorem derivative_monoVec_ok {l : List (Mono R)} {v : Var R} {Q : ℕ → Scalar R → Prop}
    (hn : 0 < l.length) (hl : ∀ m ∈ l, m.Canon) (hv : v.OK) (hconv : ∀ i, i < l.length → Conv (Q i))
    (hop : ∀ i m, l[i]? = some m → Go.Ok ((m.afterDerivative v).derivative v) (Q i)) :
    Go.Ok (Vec.derivative (.m l) v) (VArr l.length Q) := by
  have hself : LArr l.length (fun i m => l[i]? = some m) l := ⟨rfl, fun i a h => h⟩
  have hck : Vec.check (.m l) = .ok () := by
    refine VArr.check (n := l.length) (Q := fun _ x => x.check = .ok ()) (a := .m l) ?_ hn fun _ _ h => h
    exact LArr.map_iff.mpr ⟨rfl, fun i m hm => (hl m (List.mem_of_getElem? hm)).check⟩
  unfold Vec.derivative
  simp only [hck, Go.ok_bind]
  refine Go.Ok.bind (LArr.mapM (Q' := fun i (d : Bool × Scalar R) => Q i d.2 ∧
    (d.1 = false → ∃ c, d.2 = .k c) ∧ ((∃ c, d.2 = .k c) ∨ ∃ m, d.2 = .mono m)) hself
      fun i m hi hm => ?_) fun ds hds => ?_
  · have hmc := hl m (List.mem_of_getElem? hm)
    obtain ⟨x, h1, h2⟩ := Mono.derivative_ok hmc hv
    obtain ⟨y, h3, h4⟩ := hop i m hm
    rw [h1, h3, Go.ok_bind, Go.ok_bind]
    refine Go.ok_pure ⟨h4, fun hx => Mono.derivative_kind hmc hv h1 h3 hx, ?_⟩
    obtain ⟨y', h5, h6⟩ := Mono.derivative_ok (Mono.afterDerivative_canon (v := v) hmc).1 hv
    rw [h3, Except.ok.injEq] at h5
    subst h5
    cases h6 with
    | absent => exact Or.inl ⟨_, rfl⟩
    | linear => exact Or.inl ⟨_, rfl⟩
    | erase => exact Or.inr ⟨_, rfl⟩
    | dec => exact Or.inr ⟨_, rfl⟩
  · by_cases hany : (ds.any (·.1)) = true
    · simp only [hany, if_true]
      refine Go.Ok.bind (LArr.mapM (Q' := fun i m => Q i (.mono m)) hds fun i d hi hd => ?_)
        fun ms hms => Go.ok_pure (LArr.map_iff.mpr hms)
      obtain ⟨h1, -, ⟨c, h2⟩ | ⟨m, h2⟩⟩ := hd
      · rw [h2]
        refine Go.ok_pure ((hconv i hi).mono (.k c) (kToMono c) (h2 ▸ h1) rfl)
      · rw [h2]
        exact Go.ok_pure (h2 ▸ h1)
    · simp only [hany, Bool.false_eq_true, if_false]
      have hds' : LArr l.length (fun i (d : Bool × Scalar R) => Q i d.2 ∧ ∃ c, d.2 = .k c) ds := by
        refine ⟨hds.1, fun i d hi => ⟨(hds.2 i d hi).1, (hds.2 i d hi).2.1 ?_⟩⟩
        by_contra h1
        exact hany (List.any_eq_true.mpr ⟨d, List.mem_of_getElem? hi, by simpa using h1⟩)
      refine Go.Ok.bind (LArr.mapM (Q' := fun i c => Q i (.k c)) hds' fun i d hi hd => ?_)
        fun ms hms => Go.ok_pure (LArr.map_iff.mpr hms)
      obtain ⟨h1, c, h2⟩ := hd
      rw [h2]
      exact Go.ok_pure (h2 ▸ h1)

/-- C11, vectors of monomials, structural part. -/
theorem derivative_monoVec_total {l : List (Mono R)} {v : Var R} (hn : 0 < l.length)
    (hl : ∀ m ∈ l, m.Canon) (hv : v.OK) :
    ∃ b, Vec.derivative (.m l) v = .ok b ∧ (Expr.v b).Shape l.length 1 ∧ (Expr.v b).Canon := by
  obtain ⟨b, h1, h2⟩ := derivative_monoVec_ok (Q := fun _ => Good (fun _ => True) Set.univ) hn hl hv
    (fun _ _ => stable_good.toConv) (fun i m hm => by
      obtain ⟨y, h1, h2, -⟩ := derivative_total (e := .mono (m.afterDerivative v))
        (Mono.afterDerivative_canon (hl m (List.mem_of_getElem? hm))).1 hv
      exact ⟨y, h1, good_of_univ h2⟩)
  have h3 := egood_spec (e := .v b) (P := fun _ => True) (D := Set.univ) (earr_v_iff.mpr h2)
  exact ⟨b, h1, h3.1, h3.2.1⟩

/-! ## Vectors and matrices of polynomials -/

theorem Poly.derivative_kind {p : Poly R} {v : Var R} {x : Scalar R} (h : p.derivative v = .ok x) :
    x = .k GoNum.zero ∨ ∃ q, x = .poly q := by
  unfold Poly.derivative at h
  obtain ⟨-, -, h⟩ := Go.bind_eq_ok.mp h
  obtain ⟨-, -, h⟩ := Go.bind_eq_ok.mp h
  obtain ⟨ms, -, h⟩ := Go.bind_eq_ok.mp h
  split at h
  · cases h; exact Or.inl rfl
  · cases h; exact Or.inr ⟨_, rfl⟩

theorem mapM_error {α β : Type} {f : α → Go β} {e : Err} {l : List α}
    (hall : ∀ x ∈ l, (∃ y, f x = .ok y) ∨ f x = .error e) (hex : ∃ x ∈ l, f x = .error e) :
    l.mapM f = .error e := by
  induction l with
  | nil => obtain ⟨x, hx, -⟩ := hex; cases hx
  | cons a t ih =>
    rw [List.mapM_cons]
    rcases hall a (by simp) with ⟨y, hy⟩ | hy
    · rw [hy, Go.ok_bind, ih (fun x hx => hall x (by simp [hx]))]
      · rfl
      · obtain ⟨x, hx, h1⟩ := hex
        rcases List.mem_cons.mp hx with rfl | hx
        · rw [hy] at h1; cases h1
        · exact ⟨x, hx, h1⟩
    · rw [hy]; rfl

theorem Poly.derivPoly_cases {p : Poly R} {v : Var R} (hp : p.Canon) (hv : v.OK) :
    (∃ q, p.derivative v = .ok (.poly q) ∧ p.derivPoly v = .ok q) ∨
    (p.derivative v = .ok (.k GoNum.zero) ∧ p.derivPoly v = .error .typeAssert) := by
  obtain ⟨x, h1, -⟩ := derivative_total (e := .poly p) hp hv
  have h1' : p.derivative v = .ok x := h1
  unfold Poly.derivPoly
  rcases Poly.derivative_kind h1' with rfl | ⟨q, rfl⟩
  · right; exact ⟨h1', by rw [h1', Go.ok_bind]; rfl⟩
  · left; exact ⟨q, h1', by rw [h1', Go.ok_bind]; rfl⟩

/-- C11: `PolynomialVector.DerivativeWrt` returns exactly when the derivative of every entry is of type
`Polynomial`; otherwise the type assertion panics. -/
theorem derivative_polyVec_iff {l : List (Poly R)} {v : Var R} (hl : ∀ p ∈ l, p.Canon) (hv : v.OK) :
    ((∃ b, Vec.derivative (.p l) v = .ok b) ↔ ∀ p ∈ l, ∃ q, p.derivative v = .ok (.poly q)) ∧
    ((∃ p ∈ l, p.derivative v = .ok (.k GoNum.zero)) →
      Vec.derivative (.p l) v = .error .typeAssert) := by
  have h2 : (∃ p ∈ l, p.derivative v = .ok (.k GoNum.zero)) →
      Vec.derivative (.p l) v = .error .typeAssert := by
    rintro ⟨p, hp, hq⟩
    unfold Vec.derivative
    simp only
    rw [mapM_error (e := .typeAssert)]
    · rfl
    · intro p' hp'
      rcases Poly.derivPoly_cases (hl p' hp') hv with ⟨q, -, h⟩ | ⟨-, h⟩
      · exact Or.inl ⟨q, h⟩
      · exact Or.inr h
    · rcases Poly.derivPoly_cases (hl p hp) hv with ⟨q, h, -⟩ | ⟨-, h⟩
      · rw [hq] at h; cases h
      · exact ⟨p, hp, h⟩
  refine ⟨⟨fun ⟨b, hb⟩ p hp => ?_, fun h => ?_⟩, h2⟩
  · rcases Poly.derivPoly_cases (hl p hp) hv with ⟨q, h, -⟩ | ⟨h, -⟩
    · exact ⟨q, h⟩
    · rw [h2 ⟨p, hp, h⟩] at hb
      cases hb
  · have : Go.Ok (l.mapM (fun p => p.derivPoly v)) (LArr l.length fun _ _ => True) :=
      LArr.mapM (Q := fun i p => l[i]? = some p) ⟨rfl, fun _ _ h => h⟩ fun i p _ hp => by
        have hp := List.mem_of_getElem? hp
        rcases Poly.derivPoly_cases (hl p hp) hv with ⟨q, -, h'⟩ | ⟨h', -⟩
        · exact ⟨q, h', trivial⟩
        · obtain ⟨q, hq⟩ := h p hp
          rw [hq] at h'; cases h'
    obtain ⟨qs, h1, -⟩ := this
    refine ⟨.p qs, ?_⟩
    unfold Vec.derivative
    simp only [h1, Go.ok_bind, Go.pure_eq]

/-- C11: `PolynomialMatrix.DerivativeWrt` panics as soon as the derivative of an entry is constant
zero. -/
theorem derivative_polyMat_panics {g : List (List (Poly R))} {v : Var R} (hr : 0 < r)
    (hs : (Expr.m (.p g)).Shape r k) (hl : (Expr.m (.p g)).Canon) (hv : v.OK)
    (hex : ∃ row ∈ g, ∃ p ∈ row, p.derivative v = .ok (.k GoNum.zero)) :
    Mat.derivative (.p g) v = .error .typeAssert := by
  have hc : ∀ row ∈ g, ∀ p ∈ row, p.Canon := fun row hrow p hp =>
    hl (row.map Scalar.poly) (List.mem_map_of_mem hrow) (.poly p) (List.mem_map_of_mem hp)
  have hrow : ∀ row ∈ g, (∃ q, row.mapM (fun p => p.derivPoly v) = .ok q) ∨
      row.mapM (fun p => p.derivPoly v) = .error .typeAssert := by
    intro row hrow
    have := derivative_polyVec_iff (hc row hrow) hv
    by_cases h : ∃ p ∈ row, p.derivative v = .ok (.k GoNum.zero)
    · right
      refine mapM_error (fun p hp => ?_) ?_
      · rcases Poly.derivPoly_cases (hc row hrow p hp) hv with ⟨q, -, h⟩ | ⟨-, h⟩
        · exact Or.inl ⟨q, h⟩
        · exact Or.inr h
      · obtain ⟨p, hp, hq⟩ := h
        rcases Poly.derivPoly_cases (hc row hrow p hp) hv with ⟨q, h, -⟩ | ⟨-, h⟩
        · rw [hq] at h; cases h
        · exact ⟨p, hp, h⟩
    · left
      obtain ⟨b, hb⟩ := this.1.mpr fun p hp => by
        rcases Poly.derivPoly_cases (hc row hrow p hp) hv with ⟨q, h, -⟩ | ⟨h', -⟩
        · exact ⟨q, h⟩
        · exact absurd ⟨p, hp, h'⟩ h
      unfold Vec.derivative at hb
      obtain ⟨q, h1, -⟩ := Go.bind_eq_ok.mp hb
      exact ⟨q, h1⟩
  have hck : Mat.check (.p g) = .ok () :=
    MArr.check (a := .p g) (earr_m_iff.mp (egood_of hs hl (P := fun _ => True) fun _ _ => trivial)) hr
      fun _ _ _ h => h.check
  unfold Mat.derivative
  simp only [hck, hv.check, Go.ok_bind]
  rw [mapM_error (e := .typeAssert) hrow]
  · rfl
  · obtain ⟨row, h1, p, h2, h3⟩ := hex
    refine ⟨row, h1, mapM_error (fun p hp => ?_) ⟨p, h2, ?_⟩⟩
    · rcases Poly.derivPoly_cases (hc row h1 p hp) hv with ⟨q, -, h⟩ | ⟨-, h⟩
      · exact Or.inl ⟨q, h⟩
      · exact Or.inr h
    · rcases Poly.derivPoly_cases (hc row h1 p h2) hv with ⟨q, h, -⟩ | ⟨-, h⟩
      · rw [h3] at h; cases h
      · exact h

end Struct

section Value
variable [Field R] [LinearOrder R]

private theorem conv_gd (f : MvPolynomial ℕ R) : Conv (GoodDen (fun _ => True) Set.univ f) where
  poly _ h := ⟨good_toPoly h.1, by rw [toPoly_den]; exact h.2⟩
  mono _ _ h hm := ⟨good_toMono h.1 hm, by rw [toMono_den hm]; exact h.2⟩

/-- C11 for scalars, constants, vectors and matrices of variables and matrices of monomials: the
entries of `DerivativeWrt` denote the partial derivatives. -/
theorem derivative_array {e : Expr R} {v : Var R} {M : Matrix (Fin r) (Fin k) (MvPolynomial ℕ R)}
    (hr : 0 < r) (hk : 0 < k) (he : e.Canon) (hM : e.Denotes M) (hd : e.DerivDirect) (hv : v.OK) :
    ∃ e', e.derivative v = .ok e' ∧ e'.Canon ∧ SameKind e e' ∧ e'.Denotes (M.map (pderiv v.id)) := by
  obtain ⟨e', h1, h2, h3⟩ := Expr.derivative_ok (v := v)
    (Q' := fun i j => GoodDen (fun _ => True) Set.univ (extM (M.map (pderiv v.id)) i j)) hr hk hd
    (eden_of he (fun row hrow a ha => a.termsIn_univ) hM) (fun _ _ _ h => h.1.check) hv.check
    (fun _ _ _ _ => conv_gd _) (fun i j x hi hj hx => by
      obtain ⟨y, h1, h2, h3⟩ := derivative_denotes_pderiv (good_iff.mp hx.1).1 hv
      refine ⟨y, h1, good_of_univ h2, ?_⟩
      rw [h3, hx.2, extM_of _ hi hj, extM_of _ hi hj]
      rfl)
  obtain ⟨h4, -, h6⟩ := eden_spec h2
  exact ⟨e', h1, h4, h3, h6⟩

/-- C11 for vectors of monomials, what the code computes: an entry with exponent at most one of `v` is
differentiated, an entry `c * v^(e+2) * u` becomes `c * (e+1) * v^e * u`. -/
theorem derivative_monoVec_value {l : List (Mono R)} {v : Var R} (hn : 0 < l.length)
    (hl : ∀ m ∈ l, m.Canon) (hv : v.OK) :
    ∃ b, Vec.derivative (.m l) v = .ok b ∧ (Expr.v b).denGrid = l.map fun m =>
      [if m.degs v.id ≤ 1 then pderiv v.id m.den
        else pderiv v.id (monomial (m.degs - Finsupp.single v.id 1) m.coeff)] := by
  obtain ⟨b, h1, h2⟩ := derivative_monoVec_ok
    (Q := fun i => GoodDen (fun _ => True) Set.univ ((l[i]?.map fun (m : Mono R) =>
      if m.degs v.id ≤ 1 then pderiv v.id m.den
        else pderiv v.id (monomial (m.degs - Finsupp.single v.id 1) m.coeff)).getD 0)) hn hl hv
    (fun _ _ => conv_gd _) (fun i m hm => by
      have hmc := hl m (List.mem_of_getElem? hm)
      obtain ⟨y, h1, h2, h3⟩ := derivative_denotes_pderiv (e := .mono (m.afterDerivative v))
        (Mono.afterDerivative_canon hmc).1 hv
      refine ⟨y, h1, good_of_univ h2, ?_⟩
      rw [h3, hm, Option.map_some, Option.getD_some]
      split
      · next h => rw [Mono.afterDerivative_small hmc h]; rfl
      · next h =>
        obtain ⟨-, h4, -, h5⟩ := Mono.afterDerivative_large hmc (v := v) (by omega)
        rw [← h5, add_tsub_cancel_right, Scalar.den_mono, Mono.den, h4])
  refine ⟨b, h1, ?_⟩
  unfold Expr.denGrid Expr.grid
  rw [List.map_map]
  apply List.ext_getElem?
  intro i
  rw [List.getElem?_map, List.getElem?_map]
  by_cases hi : i < l.length
  · obtain ⟨x, h3, h4⟩ := LArr.get h2 hi
    have h5 := h4.2
    rw [List.getElem?_eq_getElem hi, Option.map_some, Option.getD_some] at h5
    rw [h3, List.getElem?_eq_getElem hi]
    simp only [Option.map_some, Function.comp_apply, List.map_cons, List.map_nil, h5]
  · rw [List.getElem?_eq_none (by rw [h2.1]; omega), List.getElem?_eq_none (by omega)]; rfl

/-- C11 for vectors of monomials, exact: the result is the vector of partial derivatives iff every
entry with non-zero coefficient contains `v` at most to the first power. -/
theorem derivative_monoVec_iff [IsStrictOrderedRing R] {l : List (Mono R)} {v : Var R}
    (hn : 0 < l.length) (hl : ∀ m ∈ l, m.Canon) (hv : v.OK) :
    (∃ b, Vec.derivative (.m l) v = .ok b ∧
      (Expr.v b).denGrid = l.map fun m => [pderiv v.id m.den]) ↔
    ∀ m ∈ l, m.coeff = 0 ∨ m.degs v.id ≤ 1 := by
  obtain ⟨b, h1, h2⟩ := derivative_monoVec_value hn hl hv
  have key : ∀ m : Mono R, (if m.degs v.id ≤ 1 then pderiv v.id m.den
        else pderiv v.id (monomial (m.degs - Finsupp.single v.id 1) m.coeff)) = pderiv v.id m.den ↔
      (m.coeff = 0 ∨ m.degs v.id ≤ 1) := by
    intro m
    by_cases h : m.degs v.id ≤ 1
    · simp [h]
    · rw [if_neg h, Mono.den]
      by_cases hc : m.coeff = 0
      · simp [hc]
      · simp only [hc, h, or_false, iff_false]
        rw [pderiv_monomial, pderiv_monomial]
        intro heq
        have h3 := congrArg (coeff (m.degs - Finsupp.single v.id 1)) heq
        rw [coeff_monomial, coeff_monomial, if_pos rfl, if_neg] at h3
        · have : (m.degs v.id : R) ≠ 0 := by
            rw [Nat.cast_ne_zero]
            omega
          exact mul_ne_zero hc this h3.symm
        · intro h4
          have h5 := DFunLike.congr_fun h4 v.id
          simp at h5
          omega
  constructor
  · rintro ⟨b', h3, h4⟩ m hm
    rw [h1, Except.ok.injEq] at h3
    subst h3
    rw [h2] at h4
    have := List.map_inj_left.mp h4 m hm
    exact (key m).mp (by simpa using this)
  · intro h
    refine ⟨b, h1, h2.trans (List.map_inj_left.mpr fun m hm => ?_)⟩
    rw [(key m).mpr (h m hm)]

/-- C11 for vectors of polynomials.  Missing: entries whose derivative is zero, where the code panics
(`derivative_polyVec_panics`). -/
theorem derivative_polyVec_partial {l : List (Poly R)} {v : Var R}
    (hl : ∀ p ∈ l, p.Canon) (hv : v.OK) (hne : ∀ p ∈ l, pderiv v.id p.den ≠ 0) :
    ∃ q, Vec.derivative (.p l) v = .ok (.p q) ∧ (∀ p ∈ q, p.Canon) ∧
      q.map Poly.den = l.map fun p => pderiv v.id p.den := by
  have key : ∀ p ∈ l, ∃ q, p.derivPoly v = .ok q ∧ q.Canon ∧ q.den = pderiv v.id p.den := by
    intro p hp
    obtain ⟨y, h1, h2, h3⟩ := derivative_denotes_pderiv (e := .poly p) (hl p hp) hv
    have h1' : p.derivative v = .ok y := h1
    rcases Poly.derivPoly_cases (hl p hp) hv with ⟨q, h4, h5⟩ | ⟨h4, -⟩
    · rw [h4, Except.ok.injEq] at h1'
      subst h1'
      exact ⟨q, h5, h2, h3⟩
    · rw [h4, Except.ok.injEq] at h1'
      subst h1'
      exact absurd (h3.symm.trans (by simp)) (hne p hp)
  obtain ⟨q, h1, h2⟩ : Go.Ok (l.mapM (fun p => p.derivPoly v))
      (LArr l.length fun i q => ∃ p, l[i]? = some p ∧ q.Canon ∧ q.den = pderiv v.id p.den) :=
    LArr.mapM (Q := fun i p => l[i]? = some p) ⟨rfl, fun _ _ h => h⟩ fun i p _ hp => by
      obtain ⟨q, h1, h2⟩ := key p (List.mem_of_getElem? hp)
      exact ⟨q, h1, p, hp, h2⟩
  refine ⟨q, ?_, fun p hp => ?_, ?_⟩
  · unfold Vec.derivative
    simp only [h1, Go.ok_bind, Go.pure_eq]
  · obtain ⟨i, hi⟩ := List.mem_iff_getElem?.mp hp
    obtain ⟨-, -, h3, -⟩ := h2.2 i p hi
    exact h3
  · apply List.ext_getElem?
    intro i
    rw [List.getElem?_map, List.getElem?_map]
    by_cases hi : i < l.length
    · obtain ⟨x, h3, p, h4, -, h6⟩ := LArr.get h2 hi
      rw [h3, h4]
      simp [h6]
    · rw [List.getElem?_eq_none (by rw [h2.1]; omega), List.getElem?_eq_none (by omega)]; rfl

/-- C11 for matrices of polynomials.  Missing: entries whose derivative is zero, where the code panics
(`derivative_polyMat_panics`). -/
theorem derivative_polyMat_partial {g : List (List (Poly R))} {v : Var R}
    {M : Matrix (Fin r) (Fin k) (MvPolynomial ℕ R)} (hr : 0 < r) (hl : (Expr.m (.p g)).Canon)
    (hM : (Expr.m (.p g)).Denotes M) (hv : v.OK) (hne : ∀ i j, pderiv v.id (M i j) ≠ 0) :
    ∃ q, Mat.derivative (.p g) v = .ok (.p q) ∧ (Expr.m (.p q)).Canon ∧
      (Expr.m (.p q)).Denotes (M.map (pderiv v.id)) := by
  have h := eden_of hl (fun row hrow a ha => a.termsIn_univ) hM
  have h' := Arr.map_iff.mp (earr_m_iff.mp h)
  have hck : Mat.check (.p g) = .ok () :=
    MArr.check (a := .p g) (earr_m_iff.mp h) hr fun _ _ _ h => h.1.check
  obtain ⟨q, h1, h2⟩ : Go.Ok (g.mapM (·.mapM (fun p => p.derivPoly v)))
      (Arr r k fun i j q => GoodDen (fun _ => True) Set.univ (extM (M.map (pderiv v.id)) i j) (.poly q)) :=
    Arr.mapM h' fun i j p hi hj hp => by
      have hpc : p.Canon := (good_iff.mp hp.1).1
      obtain ⟨y, h1, h2, h3⟩ := derivative_denotes_pderiv (e := .poly p) hpc hv
      have h1' : p.derivative v = .ok y := h1
      have hden : p.den = M ⟨i, hi⟩ ⟨j, hj⟩ := by rw [← extM_of M hi hj]; exact hp.2
      rcases Poly.derivPoly_cases hpc hv with ⟨q, h4, h5⟩ | ⟨h4, -⟩
      · rw [h4, Except.ok.injEq] at h1'
        subst h1'
        refine ⟨q, h5, good_of_univ h2, ?_⟩
        rw [h3, extM_of _ hi hj, Scalar.den_poly]
        show _ = pderiv v.id (M _ _)
        rw [← hden]
        rfl
      · rw [h4, Except.ok.injEq] at h1'
        subst h1'
        have := hne ⟨i, hi⟩ ⟨j, hj⟩
        rw [← hden] at this
        exact absurd (h3.symm.trans (show (Scalar.k GoNum.zero : Scalar R).den = 0 by simp)) this
  have h3 : EArr r k (fun i j => GoodDen (fun _ => True) Set.univ (extM (M.map (pderiv v.id)) i j))
      (.m (.p q)) := earr_m_iff.mpr (Arr.map_iff.mpr h2)
  obtain ⟨h4, -, h6⟩ := eden_spec h3
  refine ⟨q, ?_, h4, h6⟩
  unfold Mat.derivative
  simp only [hck, hv.check, h1, Go.ok_bind, Go.pure_eq]

/-- A polynomial without the variable: `DerivativeWrt` returns the constant zero, of type `K`. -/
theorem derivative_unmentioned {p : Poly R} {v : Var R} (hp : p.Canon) (hv : v.OK)
    (hm : ∀ w, (Scalar.poly p).Mentions w → w.id ≠ v.id) : p.derivative v = .ok (.k 0) := by
  unfold Poly.derivative
  rw [show p.check = .ok () from (good_of_univ (s := .poly p) hp).check, hv.check, Go.ok_bind, Go.ok_bind]
  have : Go.Ok (p.monos.foldlM (derivStep v) []) (fun l => l = []) := by
    apply Go.foldlM_ok
    · rfl
    intro acc m hmm hacc
    subst hacc
    unfold derivStep
    split
    · exact Go.ok_pure rfl
    · obtain ⟨x, h1, h2⟩ := Mono.derivative_ok (hp.all m hmm) hv
      have hnot : v.id ∉ m.vars.map (·.id) := by
        intro h
        obtain ⟨w, hw, hwv⟩ := List.mem_map.mp h
        exact hm w ⟨m, hmm, hw⟩ hwv
      unfold Mono.derivative
      rw [(hp.all m hmm).check, hv.check, Go.ok_bind, Go.ok_bind, findVar_eq_none.mpr hnot]
      simp only [Go.pure_eq, Go.ok_bind]
      simp
      exact Go.ok_pure rfl
  obtain ⟨l, h1, rfl⟩ := this
  rw [h1]
  rfl

/-- C11 is false: a polynomial vector with an entry that does not contain `v` makes `DerivativeWrt`
panic. -/
theorem derivative_polyVec_panics {l : List (Poly R)} {v : Var R} (hl : ∀ p ∈ l, p.Canon) (hv : v.OK)
    (hex : ∃ p ∈ l, ∀ w, (Scalar.poly p).Mentions w → w.id ≠ v.id) :
    Vec.derivative (.p l) v = .error .typeAssert := by
  obtain ⟨p, hp, h⟩ := hex
  exact (derivative_polyVec_iff hl hv).2 ⟨p, hp, derivative_unmentioned (hl p hp) hv h⟩

end Value

/-! ## Counterexamples and examples -/

/-- C11 is false for vectors of monomials: `d/dx (x^2) = 2x` is computed as 1. -/
theorem derivative_monoVec_false :
    Vec.derivative (.m [wm1 1 0 2]) wx = .ok (.m [wm0 1]) ∧
    ¬ ∀ (l : List (Mono ℚ)) (v : Var ℚ), 0 < l.length → (∀ m ∈ l, m.Canon) → v.OK →
      ∃ b, Vec.derivative (.m l) v = .ok b ∧ (Expr.v b).denGrid = l.map fun m => [pderiv v.id m.den] := by
  refine ⟨by decide +kernel, fun h => ?_⟩
  have hc : ∀ m ∈ [wm1 1 0 2], m.Canon := by
    intro m hm
    rw [List.mem_singleton] at hm
    subst hm
    exact wm1_canon _ _ (by decide)
  have := (derivative_monoVec_iff (by decide) hc (wv_ok 0)).mp (h _ wx (by decide) hc (wv_ok 0)) _
    (List.mem_singleton_self _)
  simp [wm1_degs, wv] at this
  simp [wm1] at this

/-- `(3x, 2xy)` by `x`: `(3, 2y)`. -/
example : ∃ b, wVm.derivative wx = .ok b ∧ (Expr.v b).denGrid =
    [wm1 3 0 1, wm2 2 0 1 1 1].map fun m => [pderiv 0 m.den] := by
  refine (derivative_monoVec_iff (v := wx) (by decide) ?_ (wv_ok 0)).mpr ?_
  · intro m hm
    simp only [List.mem_cons, List.not_mem_nil, or_false] at hm
    rcases hm with rfl | rfl
    · exact wm1_canon _ _ (by decide)
    · exact wm2_canon _ (by decide) (by decide) (by decide)
  · intro m hm
    simp only [List.mem_cons, List.not_mem_nil, or_false] at hm
    rcases hm with rfl | rfl
    · right; simp [wm1_degs, wv]
    · right; simp [wm2_degs, wv]

example : wVm.derivative wx = .ok (.m [wm0 3, wm1 2 1 1]) := by decide +kernel

/-- `(x + 5, 2y)` by `x`: the second entry makes the type assertion panic. -/
example : wVp.derivative wx = .error .typeAssert := by
  refine derivative_polyVec_panics ?_ (wv_ok 0) ⟨⟨[wm1 2 1 1]⟩, by simp, ?_⟩
  · intro p hp
    exact Expr.okDeg_canon (e := .v wVp) 1 (by decide +kernel) [.poly p]
      (List.mem_map.mpr ⟨.poly p, List.mem_map_of_mem hp, rfl⟩) (.poly p) (by simp)
  · rintro w ⟨m, hm, hw⟩
    simp only [List.mem_singleton] at hm
    subst hm
    simp only [wm1, List.mem_singleton] at hw
    subst hw
    decide

/-- `(x^2 + 5, 2x)` by `x`: `(2x, 2)`. -/
example : Vec.derivative (.p [⟨[wm1 1 0 2, wm0 5]⟩, ⟨[wm1 2 0 1]⟩]) wx =
    .ok (.p [⟨[wm1 2 0 1]⟩, ⟨[wm0 2]⟩]) := by decide +kernel

/-- The entries of `(x^2 + 5, 2x)` have non-zero derivatives. -/
example : ∃ q, Vec.derivative (.p [⟨[wm1 1 0 2, wm0 5]⟩, ⟨[wm1 2 0 1]⟩]) wx = .ok (.p q) := by
  obtain ⟨q, h, -⟩ := derivative_polyVec_partial (v := wx)
    (l := [⟨[wm1 1 0 2, wm0 5]⟩, ⟨[wm1 2 0 1]⟩]) (by
      intro p hp
      exact Expr.okDeg_canon (e := .v (.p [⟨[wm1 1 0 2, wm0 5]⟩, ⟨[wm1 2 0 1]⟩])) 2 (by decide +kernel)
        [.poly p] (List.mem_map.mpr ⟨.poly p, List.mem_map_of_mem hp, rfl⟩) (.poly p) (by simp)) (wv_ok 0) (by
      intro p hp
      simp only [List.mem_cons, List.not_mem_nil, or_false] at hp
      rcases hp with rfl | rfl
      · intro h
        have := congrArg (eval fun _ => 1) h
        simp [Poly.den, wm1_den, wm0, Mono.den_of_vars_nil, wv] at this
      · intro h
        have := congrArg (eval fun _ => 1) h
        simp [Poly.den, wm1_den, wv] at this)
  exact ⟨q, h⟩

/-- The matrix `((3x, 2y), (z, 4))` by `x`. -/
example : wMm.derivative wx = .ok (.k [[3, 0], [0, 0]]) := by decide +kernel

example : ∃ e' M', (Expr.m wMm).derivative wx = .ok e' ∧
    e'.Denotes (M' : Matrix (Fin 2) (Fin 2) (MvPolynomial ℕ ℚ)) := by
  obtain ⟨e', h1, -, -, h⟩ := derivative_array (r := 2) (k := 2) (e := .m wMm) (v := wx) (by decide) (by decide)
    (Expr.okDeg_canon 1 (by decide +kernel)) (Expr.Shape.denotes (by decide +kernel)) trivial (wv_ok 0)
  exact ⟨e', _, h1, h⟩

end Verif
