import Verif.Props.VecLinear

/-!
# C12, C14, C41 for vectors and matrices: substitution
-/

set_option linter.unusedSectionVars false

namespace Verif

open MvPolynomial

variable {R : Type} {r k n : ℕ}

/-- Both scalars, both vectors or both matrices. -/
def SameKind : Expr R → Expr R → Prop
  | .s _, .s _ => True
  | .v _, .v _ => True
  | .m _, .m _ => True
  | _, _ => False

theorem SameKind.refl (e : Expr R) : SameKind e e := by cases e <;> trivial

theorem SameKind.trans {a b c : Expr R} (h : SameKind a b) (h' : SameKind b c) : SameKind a c := by
  cases a <;> cases b <;> cases c <;> first | trivial | exact h.elim | exact h'.elim

section Struct
variable [GoNum R]

theorem Vec.substitute_ok {a : Vec R} {v : Var R} {s : Scalar R} {Q Q' : ℕ → Scalar R → Prop}
    (hn : 0 < n) (h : VArr n Q a) (hca : ∀ i x, Q i x → x.check = .ok ()) (hv : v.check = .ok ())
    (hs : s.check = .ok ()) (hconv : ∀ i, i < n → Conv (Q' i))
    (hop : ∀ i x, i < n → Q i x → Go.Ok (x.substitute v s) (Q' i)) :
    Go.Ok (a.substitute v s) (VArr n Q') := by
  have hmain : Go.Ok (do
      a.check
      v.check
      s.check
      let n ← a.len
      concretizeVec (← (List.range n).mapM (fun (i : Nat) => do
        let x ← a.atVec i
        x.substitute v s)) : Go (Vec R)) (VArr n Q') := by
    rw [h.check hn hca, hv, hs, Go.ok_bind, Go.ok_bind, Go.ok_bind, h.len hn hca, Go.ok_bind]
    refine Go.Ok.bind (LArr.mapM (LArr.range n) (Q' := Q') fun i j hi hj => ?_) fun l hl =>
      concretizeVec_conv hl hn hconv
    subst hj
    exact (h.atVec hca hi).bind fun x hx => hop _ x hi hx
  cases a with
  | k l =>
    refine Go.ok_pure (LArr.map_iff.mpr ((LArr.map_iff.mp h).mono fun i c hi hc => ?_))
    obtain ⟨b, h1, h2⟩ := hop i (.k c) hi hc
    cases h1
    exact h2
  | v l => exact hmain
  | m l => exact hmain
  | p l => exact hmain

theorem Mat.substitute_ok {a : Mat R} {v : Var R} {s : Scalar R} {Q Q' : ℕ → ℕ → Scalar R → Prop}
    (hr : 0 < r) (h : MArr r k Q a) (hca : ∀ i j x, Q i j x → x.check = .ok ()) (hv : v.check = .ok ())
    (hs : s.check = .ok ()) (hconv : ∀ i j, i < r → j < k → Conv (Q' i j))
    (hop : ∀ i j x, i < r → j < k → Q i j x → Go.Ok (x.substitute v s) (Q' i j)) :
    Go.Ok (a.substitute v s) (MArr r k Q') := by
  have hmain : Go.Ok (do
      a.check
      v.check
      s.check
      let d ← a.dims
      concretizeMat (← (List.range d.1).mapM (fun (i : Nat) => (List.range d.2).mapM (fun (j : Nat) => do
        let x ← a.at i j
        x.substitute v s))) : Go (Mat R)) (MArr r k Q') := by
    rw [h.check hr hca, hv, hs, Go.ok_bind, Go.ok_bind, Go.ok_bind, h.dims hr hca, Go.ok_bind]
    refine Go.Ok.bind (Arr.mapRange (Q' := Q') r k fun i j hi hj => ?_) fun l hl =>
      concretizeMat_conv hl hr hconv
    exact (h.at hca hi hj).bind fun x hx => hop i j x hi hj hx
  cases a with
  | k l =>
    refine Go.ok_pure (Arr.map_iff.mpr ((Arr.map_iff.mp h).mono fun i j c hi hj hc => ?_))
    obtain ⟨b, h1, h2⟩ := hop i j (.k c) hi hj hc
    cases h1
    exact h2
  | v l => exact hmain
  | m l => exact hmain
  | p l => exact hmain

theorem Expr.substitute_ok {e : Expr R} {v : Var R} {s : Scalar R} {Q Q' : ℕ → ℕ → Scalar R → Prop}
    (hr : 0 < r) (h : EArr r k Q e) (hca : ∀ i j x, Q i j x → x.check = .ok ()) (hv : v.check = .ok ())
    (hs : s.check = .ok ()) (hconv : ∀ i j, i < r → j < k → Conv (Q' i j))
    (hop : ∀ i j x, i < r → j < k → Q i j x → Go.Ok (x.substitute v s) (Q' i j)) :
    Go.Ok (e.substitute v s) (fun e' => EArr r k Q' e' ∧ SameKind e e') := by
  cases e with
  | s a =>
    have h1 : 1 = r := h.1
    have h2 := Arr.rowLen h (row := [a]) (by simp [Expr.grid])
    simp only [List.length_singleton] at h2
    subst h1 h2
    obtain ⟨b, h1, h2⟩ := hop 0 0 a (by decide) (by decide) (earr_s_iff.mp h)
    refine ⟨.s b, ?_, earr_s h2, trivial⟩
    show (do return Expr.s (← a.substitute v s) : Go (Expr R)) = _
    rw [h1]; rfl
  | v a =>
    obtain rfl : k = 1 := earr_v_cols hr h
    obtain ⟨b, h1, h2⟩ := Vec.substitute_ok (Q' := fun i => Q' i 0) hr (earr_v_iff.mp h)
      (fun i => hca i 0) hv hs (fun i hi => hconv i 0 hi (by decide))
      (fun i x hi hx => hop i 0 x hi (by decide) hx)
    refine ⟨.v b, ?_, earr_v_iff.mpr h2, trivial⟩
    show (do return Expr.v (← a.substitute v s) : Go (Expr R)) = _
    rw [h1]; rfl
  | m a =>
    obtain ⟨b, h1, h2⟩ := Mat.substitute_ok hr (earr_m_iff.mp h) hca hv hs hconv hop
    refine ⟨.m b, ?_, earr_m_iff.mpr h2, trivial⟩
    show (do return Expr.m (← a.substitute v s) : Go (Expr R)) = _
    rw [h1]; rfl

/-- C12 for every kind, structural part: `Substitute` answers with a well-formed array of the same
shape and kind, whose variables occur in the operands. -/
theorem substitute_array_total {e : Expr R} {v : Var R} {s : Scalar R} (hr : 0 < r) (he : e.Canon)
    (hs : e.Shape r k) (hv : v.OK) (hsc : s.Canon) :
    ∃ e', e.substitute v s = .ok e' ∧ e'.Shape r k ∧ e'.Canon ∧ SameKind e e' ∧
      ∀ w, e'.Mentions w → e.Mentions w ∨ s.Mentions w := by
  obtain ⟨e', h1, h2, h3⟩ := Expr.substitute_ok (v := v) (s := s)
    (Q' := fun _ _ => Good (fun w => e.Mentions w ∨ s.Mentions w) Set.univ) hr
    (egood_of hs he fun w hw => hw) (fun _ _ _ h => h.check) hv.check (good_of_univ hsc).check
    (fun _ _ _ _ => stable_good.toConv) (fun i j x _ _ hx => by
      obtain ⟨y, h1, h2, h3⟩ := substitute_total (good_iff.mp hx).1 hv hsc
      refine ⟨y, h1, good_mentions h2 y.termsIn_univ fun w hw => ?_⟩
      exact (h3 w hw).imp ((good_iff.mp hx).2.2 w) id)
  obtain ⟨h4, h5, h6⟩ := egood_spec h2
  exact ⟨e', h1, h4, h5, h3, h6⟩

/-! ## SubstituteAccordingTo -/

theorem vec_substSeq_k (l : List R) (sm : SubMap R) :
    sm.foldlM (fun (acc : Vec R) kv => acc.substitute kv.1 kv.2) (.k l) = .ok (.k l) := by
  induction sm with
  | nil => rfl
  | cons kv t ih => rw [List.foldlM_cons]; exact ih

theorem mat_substSeq_k (l : List (List R)) (sm : SubMap R) :
    sm.foldlM (fun (acc : Mat R) kv => acc.substitute kv.1 kv.2) (.k l) = .ok (.k l) := by
  induction sm with
  | nil => rfl
  | cons kv t ih => rw [List.foldlM_cons]; exact ih

theorem vec_substMap_eq {a : Vec R} {sm : SubMap R} (hc : a.check = .ok ())
    (hsm : checkSubMap sm = .ok ()) :
    a.substMap sm = sm.foldlM (fun (acc : Vec R) kv => acc.substitute kv.1 kv.2) a := by
  cases a with
  | k l => rw [vec_substSeq_k]; rfl
  | v l | m l | p l =>
    unfold Vec.substMap
    simp only [hc, hsm, Go.ok_bind]

theorem mat_substMap_eq {a : Mat R} {sm : SubMap R} (hc : a.check = .ok ())
    (hsm : checkSubMap sm = .ok ()) :
    a.substMap sm = sm.foldlM (fun (acc : Mat R) kv => acc.substitute kv.1 kv.2) a := by
  cases a with
  | k l => rw [mat_substSeq_k]; rfl
  | v l | m l | p l =>
    unfold Mat.substMap
    simp only [hc, hsm, Go.ok_bind]

/-- The loop over the map on vectors, with an invariant that depends on the remaining pairs. -/
theorem Vec.substSeq_ok (J : SubMap R → ℕ → Scalar R → Prop) (hn : 0 < n)
    (hca : ∀ t i x, J t i x → x.check = .ok ()) (hconv : ∀ t i, Conv (J t i))
    (hstep : ∀ kv t i x, J (kv :: t) i x → Go.Ok (x.substitute kv.1 kv.2) (J t i)) :
    ∀ {sm : SubMap R} {a : Vec R}, (∀ kv ∈ sm, kv.1.OK ∧ kv.2.Canon) → VArr n (J sm) a →
      Go.Ok (sm.foldlM (fun (acc : Vec R) kv => acc.substitute kv.1 kv.2) a) (VArr n (J [])) := by
  intro sm
  induction sm with
  | nil => exact fun _ h => Go.ok_pure h
  | cons kv t ih =>
    intro a hsm h
    rw [List.foldlM_cons]
    have hkv := hsm kv (by simp)
    exact (Vec.substitute_ok hn h (hca _) hkv.1.check (good_of_univ hkv.2).check
      (fun i _ => hconv t i) fun i x _ hx => hstep kv t i x hx).bind fun b hb =>
        ih (fun kv' h' => hsm kv' (by simp [h'])) hb

theorem Mat.substSeq_ok (J : SubMap R → ℕ → ℕ → Scalar R → Prop) (hr : 0 < r)
    (hca : ∀ t i j x, J t i j x → x.check = .ok ()) (hconv : ∀ t i j, Conv (J t i j))
    (hstep : ∀ kv t i j x, J (kv :: t) i j x → Go.Ok (x.substitute kv.1 kv.2) (J t i j)) :
    ∀ {sm : SubMap R} {a : Mat R}, (∀ kv ∈ sm, kv.1.OK ∧ kv.2.Canon) → MArr r k (J sm) a →
      Go.Ok (sm.foldlM (fun (acc : Mat R) kv => acc.substitute kv.1 kv.2) a) (MArr r k (J [])) := by
  intro sm
  induction sm with
  | nil => exact fun _ h => Go.ok_pure h
  | cons kv t ih =>
    intro a hsm h
    rw [List.foldlM_cons]
    have hkv := hsm kv (by simp)
    exact (Mat.substitute_ok hr h (hca _) hkv.1.check (good_of_univ hkv.2).check
      (fun i j _ _ => hconv t i j) fun i j x _ _ hx => hstep kv t i j x hx).bind fun b hb =>
        ih (fun kv' h' => hsm kv' (by simp [h'])) hb

theorem Expr.substMap_ok (J : SubMap R → ℕ → ℕ → Scalar R → Prop) (hr : 0 < r)
    (hca : ∀ t i j x, J t i j x → x.check = .ok ()) (hconv : ∀ t i j, Conv (J t i j))
    (hstep : ∀ kv t i j x, J (kv :: t) i j x → Go.Ok (x.substitute kv.1 kv.2) (J t i j))
    {sm : SubMap R} {e : Expr R} (hns : ∀ a, e ≠ .s a)
    (hsm : ∀ kv ∈ sm, kv.1.OK ∧ kv.2.Canon) (h : EArr r k (J sm) e) :
    Go.Ok (e.substMap sm) (fun e' => EArr r k (J []) e' ∧ SameKind e e') := by
  cases e with
  | s a => exact absurd rfl (hns a)
  | v a =>
    obtain rfl : k = 1 := earr_v_cols hr h
    have ha := earr_v_iff.mp h
    obtain ⟨b, h1, h2⟩ := Vec.substSeq_ok (fun t i => J t i 0) hr (fun t i => hca t i 0)
      (fun t i => hconv t i 0) (fun kv t i => hstep kv t i 0) hsm ha
    refine ⟨.v b, ?_, earr_v_iff.mpr h2, trivial⟩
    show (do return Expr.v (← a.substMap sm) : Go (Expr R)) = _
    rw [vec_substMap_eq (ha.check hr fun i => hca _ i 0) (checkSubMap_ok hsm), h1]; rfl
  | m a =>
    have ha := earr_m_iff.mp h
    obtain ⟨b, h1, h2⟩ := Mat.substSeq_ok J hr hca hconv hstep hsm ha
    refine ⟨.m b, ?_, earr_m_iff.mpr h2, trivial⟩
    show (do return Expr.m (← a.substMap sm) : Go (Expr R)) = _
    rw [mat_substMap_eq (ha.check hr (hca _)) (checkSubMap_ok hsm), h1]; rfl

/-- C14, structural part: `SubstituteAccordingTo` answers for every order of the map, with a
well-formed array of the same shape and kind. -/
theorem substMap_array_total {e : Expr R} {sm : SubMap R} (hr : 0 < r) (he : e.Canon)
    (hs : e.Shape r k) (hsm : ∀ kv ∈ sm, kv.1.OK ∧ kv.2.Canon) :
    ∃ e', e.substMap sm = .ok e' ∧ e'.Shape r k ∧ e'.Canon ∧ SameKind e e' := by
  by_cases hns : ∃ a, e = .s a
  · obtain ⟨a, rfl⟩ := hns
    have ha : a.Canon := he [a] (by simp [Expr.grid]) a (by simp)
    obtain ⟨b, h1, h2⟩ := substMap_total ha hsm
    have h0 := EArr.self hs
    have h01 : 1 = r := h0.1
    have h02 := Arr.rowLen h0 (row := [a]) (by simp [Expr.grid])
    simp only [List.length_singleton] at h02
    subst h01 h02
    refine ⟨.s b, ?_, ⟨rfl, by simp [Expr.grid]⟩, ?_, trivial⟩
    · show (do return Expr.s (← a.substMap sm) : Go (Expr R)) = _
      rw [h1]; rfl
    · intro row hrow x hx
      simp only [Expr.grid, List.mem_singleton] at hrow
      subst hrow
      rw [List.mem_singleton.mp hx]
      exact h2
  · push Not at hns
    obtain ⟨e', h1, h2, h3⟩ := Expr.substMap_ok
      (J := fun t _ _ x => Good (fun _ => True) Set.univ x ∧ ∀ kv ∈ t, kv.1.OK ∧ kv.2.Canon) hr
      (fun _ _ _ _ h => h.1.check)
      (fun t i j => ⟨fun a h => ⟨stable_good.poly a h.1, h.2⟩,
        fun a m h hm => ⟨stable_good.mono a m h.1 hm, h.2⟩⟩)
      (fun kv t i j x hx => by
        have hkv := hx.2 kv (by simp)
        obtain ⟨y, h1, h2, h3⟩ := substitute_total (good_iff.mp hx.1).1 hkv.1 hkv.2
        exact ⟨y, h1, good_of_univ h2, fun kv' h' => hx.2 kv' (by simp [h'])⟩) hns hsm
      ((egood_of hs he fun _ _ => trivial).mono fun _ _ _ _ _ h => ⟨h, hsm⟩)
    refine ⟨e', h1, h2.shape, h2.all fun _ _ a ha => (good_iff.mp ha.1).1, h3⟩

end Struct

section Value
variable [Field R] [LinearOrder R] {D T : Set (ℕ →₀ ℕ)}

/-- An exponent vector written in some entry. -/
def Expr.HasTerm (e : Expr R) (d : ℕ →₀ ℕ) : Prop := ∃ row ∈ e.grid, ∃ a ∈ row, a.HasTerm d

/-- Every variable of `e` with the ID of `v` is from the environment of `v`. -/
def SameEnvArr (v : Var R) (e : Expr R) : Prop := ∀ w, e.Mentions w → w.id = v.id → w.env = v.env

/-- C12 for every kind: the entries of `e.Substitute(v, s)` are the entries of `e` with `v` replaced
by `s`.  Missing: rearranged terms and variables of other environments, as for scalars. -/
theorem substitute_array_partial {e : Expr R} {v : Var R} {s : Scalar R}
    {M : Matrix (Fin r) (Fin k) (MvPolynomial ℕ R)} (hr : 0 < r) (hD : RearrFree D) (he : e.Canon)
    (hM : e.Denotes M) (hv : v.OK) (hs : s.Canon) (henv : SameEnvArr v e) (ts : s.TermsIn T)
    (hin : ∀ d, e.HasTerm d → SubstTerms (substTermsFor v T) d ⊆ D) :
    ∃ e', e.substitute v s = .ok e' ∧ e'.Canon ∧ e'.TermsIn D ∧ SameKind e e' ∧
      e'.Denotes (M.map (bind₁ (substFor v s))) := by
  have h0 := (((denotes_iff.mp hM).and_all he).and_all
    (q := SameEnv v) fun row hrow x hx w hw => henv w ⟨row, hrow, x, hx, hw⟩).and_all
    (q := fun x => ∀ d, x.HasTerm d → SubstTerms (substTermsFor v T) d ⊆ D)
    fun row hrow x hx d hd => hin d ⟨row, hrow, x, hx, hd⟩
  obtain ⟨e', h1, h2, h3⟩ := Expr.substitute_ok (v := v) (s := s)
    (Q' := fun i j => GoodDen (fun _ => True) D (bind₁ (substFor v s) (extM M i j))) hr h0
    (fun _ _ x h => (good_of_univ h.1.1.2).check) hv.check (good_of_univ hs).check
    (fun _ _ _ _ => (stable_goodDen hD _).toConv) (fun i j x _ _ hx => by
      obtain ⟨y, h1, h2, h3, h4⟩ := substitute_denotes_bind_partial hD hx.1.1.2 hv hs hx.1.2 ts hx.2
      exact ⟨y, h1, good_of h2 h3, by rw [h4, hx.1.1.1]⟩)
  have h4 : EArr r k (fun i j => GoodDen (fun _ => True) D
      (extM (M.map (bind₁ (substFor v s))) i j)) e' := by
    refine h2.mono fun i j x hi hj hx => ?_
    rw [extM_of _ hi hj] at hx ⊢
    exact hx
  obtain ⟨h5, h6, h7⟩ := eden_spec h4
  exact ⟨e', h1, h5, h6, h3, h7⟩

theorem Expr.hasTerm_in {e : Expr R} (he : e.Canon) (te : e.TermsIn D) (h0 : (0 : ℕ →₀ ℕ) ∈ D)
    {d : ℕ →₀ ℕ} (hd : e.HasTerm d) : d ∈ D := by
  obtain ⟨row, hrow, x, hx, hd⟩ := hd
  exact Verif.hasTerm_in (he row hrow x hx) (te row hrow x hx) h0 hd

/-- C12 for every kind, no side condition on the terms: affine replacements in arrays of degree at
most two. -/
theorem substitute_array_quadratic {e : Expr R} {v : Var R} {s : Scalar R}
    {M : Matrix (Fin r) (Fin k) (MvPolynomial ℕ R)} (hr : 0 < r) (he : e.Canon)
    (hM : e.Denotes M) (hv : v.OK) (hs : s.Canon) (henv : SameEnvArr v e)
    (te : e.TermsIn (degLE 2)) (ts : s.TermsIn (degLE 1)) :
    ∃ e', e.substitute v s = .ok e' ∧ e'.Canon ∧ e'.TermsIn (degLE 2) ∧ SameKind e e' ∧
      e'.Denotes (M.map (bind₁ (substFor v s))) := by
  refine substitute_array_partial hr rearrFree_degLE_two he hM hv hs henv ts fun d hd => ?_
  refine substTerms_degLE (a := 1) (b := 2) ?_ (Expr.hasTerm_in he te (by simp [degLE]) hd)
  intro i
  unfold substTermsFor
  split
  · exact subset_rfl
  · rintro x rfl
    simp [degLE]

/-- `φ` is the simultaneous replacement of the keys of `sm`. -/
structure Simul (sm : SubMap R) (φ : ℕ → MvPolynomial ℕ R) : Prop where
  key : ∀ kv ∈ sm, φ kv.1.id = kv.2.den
  other : ∀ i, i ∉ sm.map (·.1.id) → φ i = X i

/-- The conditions under which replacing one key after the other is the simultaneous replacement: the
IDs of the keys are distinct, no replacement mentions another key, and the terms in `D` stay in `D`. -/
structure SubOK (D : Set (ℕ →₀ ℕ)) (sm : SubMap R) : Prop where
  ok : ∀ kv ∈ sm, kv.1.OK ∧ kv.2.Canon
  nodup : (sm.map (·.1.id)).Nodup
  indep : ∀ kv ∈ sm, ∀ w, kv.2.Mentions w → w.id ∈ sm.map (·.1.id) → w.id = kv.1.id
  closed : ∀ kv ∈ sm, ∃ T, kv.2.TermsIn T ∧ ∀ d ∈ D, SubstTerms (substTermsFor kv.1 T) d ⊆ D

theorem SubOK.tail {kv : Var R × Scalar R} {t : SubMap R} (h : SubOK D (kv :: t)) : SubOK D t where
  ok kv' h' := h.ok kv' (by simp [h'])
  nodup := (List.nodup_cons.mp (by simpa using h.nodup)).2
  indep kv' h' w hw hk := h.indep kv' (by simp [h']) w hw (by
    rw [List.map_cons]
    exact List.mem_cons_of_mem _ hk)
  closed kv' h' := h.closed kv' (by simp [h'])

theorem SubOK.perm {sm sm' : SubMap R} (h : SubOK D sm) (hp : sm.Perm sm') : SubOK D sm' where
  ok kv h' := h.ok kv (hp.mem_iff.mpr h')
  nodup := (hp.map _).nodup_iff.mp h.nodup
  indep kv h' w hw hk := h.indep kv (hp.mem_iff.mpr h') w hw ((hp.map _).mem_iff.mpr hk)
  closed kv h' := h.closed kv (hp.mem_iff.mpr h')

theorem Simul.perm {sm sm' : SubMap R} {φ : ℕ → MvPolynomial ℕ R} (h : Simul sm φ)
    (hp : sm.Perm sm') : Simul sm' φ where
  key kv h' := h.key kv (hp.mem_iff.mpr h')
  other i hi := h.other i fun h' => hi ((hp.map _).mem_iff.mp h')

/-- The replacement, computed by looking for the first pair with the ID. -/
noncomputable def simul : SubMap R → ℕ → MvPolynomial ℕ R
  | [], i => X i
  | kv :: t, i => if i = kv.1.id then kv.2.den else simul t i

theorem simul_other {sm : SubMap R} {i : ℕ} (h : i ∉ sm.map (·.1.id)) : simul sm i = X i := by
  induction sm with
  | nil => rfl
  | cons kv t ih =>
    simp only [List.map_cons, List.mem_cons, not_or] at h
    rw [simul, if_neg h.1, ih h.2]

theorem simul_spec {sm : SubMap R} (hn : (sm.map (·.1.id)).Nodup) : Simul sm (simul sm) := by
  refine ⟨?_, fun i hi => simul_other hi⟩
  induction sm with
  | nil => simp
  | cons kv t ih =>
    simp only [List.map_cons, List.nodup_cons] at hn
    intro kv' h'
    rcases List.mem_cons.mp h' with rfl | h'
    · simp [simul]
    · have hne : kv'.1.id ≠ kv.1.id := fun hc => hn.1 (hc ▸ List.mem_map.mpr ⟨kv', h', rfl⟩)
      rw [simul, if_neg hne]
      exact ih hn.2 kv' h'

theorem Simul.unique {sm : SubMap R} {φ ψ : ℕ → MvPolynomial ℕ R} (h : Simul sm φ)
    (h' : Simul sm ψ) : φ = ψ := by
  funext i
  by_cases hi : i ∈ sm.map (·.1.id)
  · obtain ⟨kv, hkv, rfl⟩ := List.mem_map.mp hi
    rw [h.key kv hkv, h'.key kv hkv]
  · rw [h.other i hi, h'.other i hi]

theorem mentioned_of_vars {e : Scalar R} (he : e.Canon) {i : ℕ} (hi : i ∈ e.den.vars) :
    ∃ w, e.Mentions w ∧ w.id = i := by
  obtain ⟨v, hv, rfl⟩ := List.mem_map.mp (variables_complete he hi)
  exact ⟨v, (variables_nodup he).2.1 v hv, rfl⟩

theorem bind_congr {f : MvPolynomial ℕ R} {φ ψ : ℕ → MvPolynomial ℕ R}
    (h : ∀ i ∈ f.vars, φ i = ψ i) : bind₁ φ f = bind₁ ψ f :=
  eval₂Hom_congr' rfl (fun i hi _ => h i hi) rfl

theorem simul_step {kv : Var R × Scalar R} {t : SubMap R} (h : SubOK D (kv :: t))
    (f : MvPolynomial ℕ R) :
    bind₁ (simul t) (bind₁ (substFor kv.1 kv.2) f) = bind₁ (simul (kv :: t)) f := by
  rw [bind₁_bind₁]
  congr 1
  congr 1
  funext i
  unfold substFor
  rw [simul]
  by_cases hi : i = kv.1.id
  · rw [if_pos hi, if_pos hi]
    have : bind₁ (simul t) kv.2.den = bind₁ X kv.2.den := by
      refine bind_congr fun j hj => simul_other fun hk => ?_
      obtain ⟨w, hw, rfl⟩ := mentioned_of_vars (h.ok kv (by simp)).2 hj
      have h1 := h.indep kv (by simp) w hw (by
        rw [List.map_cons]
        exact List.mem_cons_of_mem _ hk)
      rw [h1] at hk
      have := h.nodup
      rw [List.map_cons, List.nodup_cons] at this
      exact this.1 hk
    rw [this]
    simp [bind₁_X_left]
  · rw [if_neg hi, if_neg hi, bind₁_X_right]

/-- Every variable of `e` with the ID of a key is from the environment of that key. -/
def SameEnvMap (sm : SubMap R) (e : Expr R) : Prop :=
  ∀ w, e.Mentions w → ∀ kv ∈ sm, w.id = kv.1.id → w.env = kv.1.env

/-- C14 and C13 for vectors and matrices: `SubstituteAccordingTo` is the simultaneous replacement.
Missing: replacements that mention other keys (`substMap_array_false`) and rearranged terms
(`substMap_array_evaluates_false`). -/
theorem substMap_array_partial {e : Expr R} {sm : SubMap R} {φ : ℕ → MvPolynomial ℕ R}
    {M : Matrix (Fin r) (Fin k) (MvPolynomial ℕ R)} (hr : 0 < r) (hns : ∀ a, e ≠ .s a)
    (hD : RearrFree D) (h0 : (0 : ℕ →₀ ℕ) ∈ D) (he : e.Canon) (te : e.TermsIn D) (hM : e.Denotes M)
    (hsm : SubOK D sm) (henv : SameEnvMap sm e) (hφ : Simul sm φ) :
    ∃ e', e.substMap sm = .ok e' ∧ e'.Canon ∧ e'.TermsIn D ∧ SameKind e e' ∧
      e'.Denotes (M.map (bind₁ φ)) := by
  obtain rfl := hφ.unique (simul_spec hsm.nodup)
  have hstart : EArr r k (fun i j x => (Good (fun w => ∀ kv ∈ sm, w.id = kv.1.id → w.env = kv.1.env) D x ∧
      SubOK D sm) ∧ bind₁ (simul sm) x.den = bind₁ (simul sm) (extM M i j)) e :=
    ((((denotes_iff.mp hM).and_all he).and_all te).and_all
      (q := fun x => ∀ w, x.Mentions w → ∀ kv ∈ sm, w.id = kv.1.id → w.env = kv.1.env)
      fun row hrow x hx w hw => henv w ⟨row, hrow, x, hx, hw⟩).mono fun i j x _ _ hx =>
      ⟨⟨good_iff.mpr ⟨hx.1.1.2, hx.1.2, hx.2⟩, hsm⟩, by rw [hx.1.1.1]⟩
  obtain ⟨e', h1, h2, h3⟩ := Expr.substMap_ok
    (J := fun t i j x => (Good (fun w => ∀ kv ∈ t, w.id = kv.1.id → w.env = kv.1.env) D x ∧
      SubOK D t) ∧ bind₁ (simul t) x.den = bind₁ (simul sm) (extM M i j)) hr
    (fun _ _ _ _ h => h.1.1.check)
    (fun t i j => ⟨fun a h => ⟨⟨stable_good.poly a h.1.1, h.1.2⟩, by
        rw [show (Scalar.poly a.toPoly).den = a.den from toPoly_den a]; exact h.2⟩,
      fun a m h hm => ⟨⟨stable_good.mono a m h.1.1 hm, h.1.2⟩, by
        rw [toMono_den hm]; exact h.2⟩⟩)
    (fun kv t i j x hx => by
      obtain ⟨⟨hg, hs⟩, hd⟩ := hx
      obtain ⟨g1, g2, g3⟩ := good_iff.mp hg
      have hkv := hs.ok kv (by simp)
      obtain ⟨T, t1, t2⟩ := hs.closed kv (by simp)
      obtain ⟨y, y1, y2, y3, y4⟩ := substitute_denotes_bind_partial hD g1 hkv.1 hkv.2
        (fun w hw => g3 w hw kv (by simp)) t1 fun d hd => t2 d (hasTerm_in g1 g2 h0 hd)
      obtain ⟨y', z1, -, z3⟩ := substitute_total g1 hkv.1 hkv.2
      rw [y1, Except.ok.injEq] at z1
      subst z1
      refine ⟨y, y1, ⟨good_iff.mpr ⟨y2, y3, fun w hw kv' h' hid => ?_⟩, hs.tail⟩, ?_⟩
      · rcases z3 w hw with hw | hw
        · exact g3 w hw kv' (by simp [h']) hid
        · exfalso
          have hk : w.id ∈ t.map (·.1.id) := List.mem_map.mpr ⟨kv', h', hid.symm⟩
          have h1 := hs.indep kv (by simp) w hw (by
            rw [List.map_cons]
            exact List.mem_cons_of_mem _ hk)
          rw [h1] at hk
          have := hs.nodup
          rw [List.map_cons, List.nodup_cons] at this
          exact this.1 hk
      · rw [y4, simul_step hs, hd]) hns hsm.ok hstart
  have h4 : EArr r k (fun i j => GoodDen (fun _ => True) D
      (extM (M.map (bind₁ (simul sm))) i j)) e' := by
    refine h2.mono fun i j x hi hj hx => ?_
    obtain ⟨⟨hg, -⟩, hd⟩ := hx
    refine ⟨good_of (good_iff.mp hg).1 (good_iff.mp hg).2.1, ?_⟩
    rw [extM_of _ hi hj] at hd ⊢
    rw [Matrix.map_apply, ← hd]
    show x.den = bind₁ (fun i => X i) x.den
    simp [bind₁_X_left]
  obtain ⟨h5, h6, h7⟩ := eden_spec h4
  exact ⟨e', h1, h5, h6, h3, h7⟩

/-- C14: the result does not depend on the order in which the map is visited: for any two orders the
results have the same shape and corresponding entries denote the same polynomial. -/
theorem substMap_array_order_partial {e : Expr R} {sm sm' : SubMap R}
    {M : Matrix (Fin r) (Fin k) (MvPolynomial ℕ R)} (hr : 0 < r) (hns : ∀ a, e ≠ .s a)
    (hD : RearrFree D) (h0 : (0 : ℕ →₀ ℕ) ∈ D) (he : e.Canon) (te : e.TermsIn D) (hM : e.Denotes M)
    (hsm : SubOK D sm) (henv : SameEnvMap sm e) (hp : sm.Perm sm') :
    ∃ e' e'', e.substMap sm = .ok e' ∧ e.substMap sm' = .ok e'' ∧ e'.denGrid = e''.denGrid := by
  have hφ := simul_spec hsm.nodup
  obtain ⟨e', h1, -, -, -, h2⟩ := substMap_array_partial hr hns hD h0 he te hM hsm henv hφ
  obtain ⟨e'', h3, -, -, -, h4⟩ := substMap_array_partial hr hns hD h0 he te hM (hsm.perm hp)
    (fun w hw kv hkv => henv w hw kv (hp.mem_iff.mpr hkv)) (hφ.perm hp)
  exact ⟨e', e'', h1, h3, h2.trans h4.symm⟩

theorem SubOK.affine {sm : SubMap R} (ok : ∀ kv ∈ sm, kv.1.OK ∧ kv.2.Canon)
    (nodup : (sm.map (·.1.id)).Nodup)
    (indep : ∀ kv ∈ sm, ∀ w, kv.2.Mentions w → w.id ∈ sm.map (·.1.id) → w.id = kv.1.id)
    (haff : ∀ kv ∈ sm, kv.2.TermsIn (degLE 1)) : SubOK (degLE 2) sm where
  ok := ok
  nodup := nodup
  indep := indep
  closed kv hkv := by
    refine ⟨degLE 1, haff kv hkv, fun d hd => substTerms_degLE (a := 1) (b := 2) (fun i => ?_) hd⟩
    unfold substTermsFor
    split
    · exact subset_rfl
    · rintro x rfl
      simp [degLE]

theorem SubOK.const {sm : SubMap R} (ok : ∀ kv ∈ sm, kv.1.OK ∧ ∃ c, kv.2 = .k c)
    (nodup : (sm.map (·.1.id)).Nodup) : SubOK multilin sm where
  ok kv hkv := by
    obtain ⟨h1, c, h2⟩ := ok kv hkv
    exact ⟨h1, by rw [h2]; trivial⟩
  nodup := nodup
  indep kv hkv w hw := by
    obtain ⟨-, c, h2⟩ := ok kv hkv
    rw [h2] at hw
    exact hw.elim
  closed kv hkv := by
    obtain ⟨-, c, h2⟩ := ok kv hkv
    refine ⟨∅, by rw [h2]; trivial, fun d hd => ?_⟩
    refine (substTerms_const ?_ d).trans ?_
    · intro i
      unfold substTermsFor
      split
      · exact Set.empty_subset _
      · exact subset_rfl
    · intro d' hd' i
      exact (hd' i).trans (hd i)

/-- C14, no side condition on the terms: affine replacements in vectors and matrices of degree at most
two. -/
theorem substMap_array_quadratic {e : Expr R} {sm : SubMap R} {φ : ℕ → MvPolynomial ℕ R}
    {M : Matrix (Fin r) (Fin k) (MvPolynomial ℕ R)} (hr : 0 < r) (hns : ∀ a, e ≠ .s a)
    (he : e.Canon) (te : e.TermsIn (degLE 2)) (hM : e.Denotes M)
    (ok : ∀ kv ∈ sm, kv.1.OK ∧ kv.2.Canon) (nodup : (sm.map (·.1.id)).Nodup)
    (indep : ∀ kv ∈ sm, ∀ w, kv.2.Mentions w → w.id ∈ sm.map (·.1.id) → w.id = kv.1.id)
    (haff : ∀ kv ∈ sm, kv.2.TermsIn (degLE 1)) (henv : SameEnvMap sm e) (hφ : Simul sm φ) :
    ∃ e', e.substMap sm = .ok e' ∧ e'.Canon ∧ e'.TermsIn (degLE 2) ∧ SameKind e e' ∧
      e'.Denotes (M.map (bind₁ φ)) :=
  substMap_array_partial hr hns rearrFree_degLE_two (by simp [degLE]) he te hM
    (SubOK.affine ok nodup indep haff) henv hφ

/-- C14, no side condition on the terms: constants for variables of multilinear vectors and
matrices. -/
theorem substMap_array_multilinear {e : Expr R} {sm : SubMap R} {φ : ℕ → MvPolynomial ℕ R}
    {M : Matrix (Fin r) (Fin k) (MvPolynomial ℕ R)} (hr : 0 < r) (hns : ∀ a, e ≠ .s a)
    (he : e.Canon) (te : e.TermsIn multilin) (hM : e.Denotes M)
    (ok : ∀ kv ∈ sm, kv.1.OK ∧ ∃ c, kv.2 = .k c) (nodup : (sm.map (·.1.id)).Nodup)
    (henv : SameEnvMap sm e) (hφ : Simul sm φ) :
    ∃ e', e.substMap sm = .ok e' ∧ e'.Canon ∧ e'.TermsIn multilin ∧ SameKind e e' ∧
      e'.Denotes (M.map (bind₁ φ)) :=
  substMap_array_partial hr hns rearrFree_multilin (by simp [multilin]) he te hM
    (SubOK.const ok nodup) henv hφ

/-! ## C41 -/

theorem Expr.Shape.denotes {e : Expr R} (h : e.Shape r k) :
    e.Denotes (Matrix.of fun (i : Fin r) (j : Fin k) => (e.entryD i j).den) := by
  refine denotes_iff.mpr ((EArr.self h).mono fun i j x hi hj hx => ?_)
  rw [extM_of _ hi hj]
  simp [Expr.entryD, hx]

theorem Expr.Denotes.shape {e : Expr R} {M : Matrix (Fin r) (Fin k) (MvPolynomial ℕ R)}
    (h : e.Denotes M) : e.Shape r k := (denotes_iff.mp h).shape

theorem Expr.Denotes.entryD {e : Expr R} {M : Matrix (Fin r) (Fin k) (MvPolynomial ℕ R)}
    (h : e.Denotes M) (i : Fin r) (j : Fin k) : (e.entryD i j).den = M i j := by
  obtain ⟨x, h1, h2⟩ := (denotes_iff.mp h).get i.2 j.2
  unfold Expr.entryD
  rw [h1, Option.getD_some, h2, extM_fin]

/-- Satisfaction in terms of the denoted matrices. -/
theorem Con.sat_denotes {c : Con R} {L N : Matrix (Fin r) (Fin k) (MvPolynomial ℕ R)}
    (hl : c.left.Denotes L) (hn : c.right.Denotes N) (ρ : ℕ → R) :
    c.Sat ρ ↔ ∀ i j, c.sense.Holds (eval ρ (L i j)) (eval ρ (N i j)) := by
  unfold Con.Sat
  rw [hl.shape.grid_eq, hn.shape.grid_eq, List.forall₂_map_left_iff, List.forall₂_map_right_iff,
    List.forall₂_same]
  simp only [List.forall₂_map_left_iff, List.forall₂_map_right_iff, List.forall₂_same,
    List.mem_range]
  constructor
  · intro h i j
    have := h i i.2 j j.2
    unfold Scalar.value at this
    rwa [hl.entryD, hn.entryD] at this
  · intro h i hi j hj
    have := h ⟨i, hi⟩ ⟨j, hj⟩
    rw [← hl.entryD, ← hn.entryD] at this
    exact this

theorem Con.substitute_lift {c : Con R} (hc : c.Canon) {v : Var R} {s : Scalar R} {l n : Expr R}
    (hl : c.left.substitute v s = .ok l) (hn : c.right.substitute v s = .ok n) :
    ∃ c', c.substitute v s = .ok c' ∧ c'.left = l ∧ c'.right = n ∧ c'.sense = c.sense := by
  have hck := hc.check
  cases c with
  | s c =>
    obtain ⟨a, h1, h2⟩ := Go.bind_eq_ok.mp hl
    obtain ⟨b, h3, h4⟩ := Go.bind_eq_ok.mp hn
    cases h2
    cases h4
    refine ⟨.s ⟨a, b, c.sense⟩, ?_, rfl, rfl, rfl⟩
    show (do return Con.s (← c.substitute v s) : Go (Con R)) = _
    unfold SCon.substitute
    rw [show c.check = .ok () from hck, Go.ok_bind, h1, Go.ok_bind, h3]
    rfl
  | v c =>
    obtain ⟨a, h1, h2⟩ := Go.bind_eq_ok.mp hl
    obtain ⟨b, h3, h4⟩ := Go.bind_eq_ok.mp hn
    cases h2
    cases h4
    refine ⟨.v ⟨a, b, c.sense⟩, ?_, rfl, rfl, rfl⟩
    show (do return Con.v (← c.substitute v s) : Go (Con R)) = _
    unfold VCon.substitute
    rw [show c.check = .ok () from hck, Go.ok_bind, h1, Go.ok_bind, h3]
    rfl
  | m c =>
    obtain ⟨a, h1, h2⟩ := Go.bind_eq_ok.mp hl
    obtain ⟨b, h3, h4⟩ := Go.bind_eq_ok.mp hn
    cases h2
    cases h4
    refine ⟨.m ⟨a, b, c.sense⟩, ?_, rfl, rfl, rfl⟩
    show (do return Con.m (← c.substitute v s) : Go (Con R)) = _
    unfold MCon.substitute
    rw [show c.check = .ok () from hck, Go.ok_bind, h1, Go.ok_bind, h3]
    rfl

theorem Con.substMap_lift {c : Con R} (hc : c.Canon) {sm : SubMap R} {l n : Expr R}
    (hl : c.left.substMap sm = .ok l) (hn : c.right.substMap sm = .ok n) :
    ∃ c', c.substMap sm = .ok c' ∧ c'.left = l ∧ c'.right = n ∧ c'.sense = c.sense := by
  have hck := hc.check
  cases c with
  | s c =>
    obtain ⟨a, h1, h2⟩ := Go.bind_eq_ok.mp hl
    obtain ⟨b, h3, h4⟩ := Go.bind_eq_ok.mp hn
    cases h2
    cases h4
    refine ⟨.s ⟨a, b, c.sense⟩, ?_, rfl, rfl, rfl⟩
    show (do return Con.s (← c.substMap sm) : Go (Con R)) = _
    unfold SCon.substMap
    rw [show c.check = .ok () from hck, Go.ok_bind, h1, Go.ok_bind, h3]
    rfl
  | v c =>
    obtain ⟨a, h1, h2⟩ := Go.bind_eq_ok.mp hl
    obtain ⟨b, h3, h4⟩ := Go.bind_eq_ok.mp hn
    cases h2
    cases h4
    refine ⟨.v ⟨a, b, c.sense⟩, ?_, rfl, rfl, rfl⟩
    show (do return Con.v (← c.substMap sm) : Go (Con R)) = _
    unfold VCon.substMap
    rw [show c.check = .ok () from hck, Go.ok_bind, h1, Go.ok_bind, h3]
    rfl
  | m c =>
    obtain ⟨a, h1, h2⟩ := Go.bind_eq_ok.mp hl
    obtain ⟨b, h3, h4⟩ := Go.bind_eq_ok.mp hn
    cases h2
    cases h4
    refine ⟨.m ⟨a, b, c.sense⟩, ?_, rfl, rfl, rfl⟩
    show (do return Con.m (← c.substMap sm) : Go (Con R)) = _
    unfold MCon.substMap
    rw [show c.check = .ok () from hck, Go.ok_bind, h1, Go.ok_bind, h3]
    rfl

theorem eval_substFor (v : Var R) (s : Scalar R) (ρ : ℕ → R) (f : MvPolynomial ℕ R) :
    eval ρ (bind₁ (substFor v s) f) = eval (Function.update ρ v.id (s.value ρ)) f := by
  rw [eval_bind₁]
  congr 1
  congr 1
  funext i
  unfold substFor Scalar.value
  by_cases h : i = v.id
  · subst h; simp
  · simp [h]

/-- C41 for every kind of constraint: an assignment satisfies `c.Substitute(v, s)` iff the assignment
updated at `v` with the value of `s` satisfies `c`.  Missing: as for `substitute_con_partial`. -/
theorem substitute_con_array_partial {c : Con R} {s : Scalar R} {v : Var R} (hD : RearrFree D)
    (hc : c.Canon) (hv : v.OK) (hs : s.Canon) (hel : SameEnvArr v c.left) (her : SameEnvArr v c.right)
    (ts : s.TermsIn T)
    (hl : ∀ d, c.left.HasTerm d → SubstTerms (substTermsFor v T) d ⊆ D)
    (hr : ∀ d, c.right.HasTerm d → SubstTerms (substTermsFor v T) d ⊆ D) :
    ∃ c', c.substitute v s = .ok c' ∧ c'.Canon ∧ c'.left.TermsIn D ∧ c'.right.TermsIn D ∧
      c'.sense = c.sense ∧ ∀ ρ, c'.Sat ρ ↔ c.Sat (Function.update ρ v.id (s.value ρ)) := by
  obtain ⟨r, k, s1, s2, hr0, hk0⟩ := hc.shape
  obtain ⟨l, l1, l2, l3, l4, l5⟩ := substitute_array_partial hr0 hD hc.left s1.denotes hv hs hel ts hl
  obtain ⟨n, n1, n2, n3, n4, n5⟩ := substitute_array_partial hr0 hD hc.right s2.denotes hv hs her ts hr
  obtain ⟨c', h1, rfl, rfl, h4⟩ := Con.substitute_lift hc l1 n1
  refine ⟨c', h1, ⟨l2, n2, ⟨r, k, l5.shape, n5.shape, hr0, hk0⟩, h4 ▸ hc.sense⟩, l3, n3, h4,
    fun ρ => ?_⟩
  rw [Con.sat_denotes l5 n5, Con.sat_denotes s1.denotes s2.denotes, h4]
  simp only [Matrix.map_apply, eval_substFor]

/-- C41, no condition on the terms: linear replacements in quadratic constraints of every kind. -/
theorem substitute_con_array_quadratic {c : Con R} {s : Scalar R} {v : Var R}
    (hc : c.Canon) (hv : v.OK) (hs : s.Canon) (hel : SameEnvArr v c.left) (her : SameEnvArr v c.right)
    (ts : s.TermsIn (degLE 1)) (hl : c.left.TermsIn (degLE 2)) (hr : c.right.TermsIn (degLE 2)) :
    ∃ c', c.substitute v s = .ok c' ∧ c'.Canon ∧ c'.left.TermsIn (degLE 2) ∧
      c'.right.TermsIn (degLE 2) ∧ c'.sense = c.sense ∧
      ∀ ρ, c'.Sat ρ ↔ c.Sat (Function.update ρ v.id (s.value ρ)) := by
  have key : ∀ d ∈ degLE 2, SubstTerms (substTermsFor v (degLE 1)) d ⊆ degLE 2 := by
    intro d hd
    refine substTerms_degLE (a := 1) (b := 2) (fun i => ?_) hd
    unfold substTermsFor
    split
    · exact subset_rfl
    · rintro x rfl
      simp [degLE]
  exact substitute_con_array_partial rearrFree_degLE_two hc hv hs hel her ts
    (fun d hd => key d (Expr.hasTerm_in hc.left hl (by simp [degLE]) hd))
    (fun d hd => key d (Expr.hasTerm_in hc.right hr (by simp [degLE]) hd))

/-- C41 for maps and vector or matrix constraints: an assignment satisfies
`c.SubstituteAccordingTo(sm)` iff the assignment in which every key has the value of its replacement
satisfies `c`. -/
theorem substMap_con_array_partial {c : Con R} {sm : SubMap R} {φ : ℕ → MvPolynomial ℕ R}
    (hD : RearrFree D) (h0 : (0 : ℕ →₀ ℕ) ∈ D) (hns : ∀ a, c ≠ .s a) (hc : c.Canon)
    (hl : c.left.TermsIn D) (hr : c.right.TermsIn D) (hsm : SubOK D sm)
    (hel : SameEnvMap sm c.left) (her : SameEnvMap sm c.right) (hφ : Simul sm φ) :
    ∃ c', c.substMap sm = .ok c' ∧ c'.Canon ∧ c'.sense = c.sense ∧
      ∀ ρ, c'.Sat ρ ↔ c.Sat (fun i => eval ρ (φ i)) := by
  obtain ⟨r, k, s1, s2, hr0, hk0⟩ := hc.shape
  have hns1 : ∀ a, c.left ≠ .s a := by
    cases c with
    | s c => exact absurd rfl (hns c)
    | v c => exact fun a h => by cases h
    | m c => exact fun a h => by cases h
  have hns2 : ∀ a, c.right ≠ .s a := by
    cases c with
    | s c => exact absurd rfl (hns c)
    | v c => exact fun a h => by cases h
    | m c => exact fun a h => by cases h
  obtain ⟨l, l1, l2, l3, l4, l5⟩ := substMap_array_partial hr0 hns1 hD h0 hc.left hl s1.denotes hsm hel hφ
  obtain ⟨n, n1, n2, n3, n4, n5⟩ := substMap_array_partial hr0 hns2 hD h0 hc.right hr s2.denotes hsm her hφ
  obtain ⟨c', h1, rfl, rfl, h4⟩ := Con.substMap_lift hc l1 n1
  refine ⟨c', h1, ⟨l2, n2, ⟨r, k, l5.shape, n5.shape, hr0, hk0⟩, h4 ▸ hc.sense⟩, h4,
    fun ρ => ?_⟩
  rw [Con.sat_denotes l5 n5, Con.sat_denotes s1.denotes s2.denotes, h4]
  simp only [Matrix.map_apply, eval_bind₁]

end Value

/-! ## Counterexamples and examples -/

/-- `(x, y)` with the map `{x: y, y: x}`: the swap gives `(y, x)`, the two orders give `(x, x)` and
`(y, y)`. -/
theorem substMap_array_order_false :
    wVv.substMap [(wx, .var wy), (wy, .var wx)] = .ok (.v [wx, wx]) ∧
    wVv.substMap [(wy, .var wx), (wx, .var wy)] = .ok (.v [wy, wy]) := by
  decide +kernel

/-- C14 is false in general: neither simultaneous nor independent of the order. -/
theorem substMap_array_false :
    ¬ (∀ (a : Vec ℚ) (sm sm' : SubMap ℚ), (Expr.v a).Canon → (∀ kv ∈ sm, kv.1.OK ∧ kv.2.Canon) →
      (sm.map (·.1.id)).Nodup → sm.Perm sm' →
      ∃ b b', a.substMap sm = .ok b ∧ a.substMap sm' = .ok b' ∧ (Expr.v b).denGrid = (Expr.v b').denGrid) ∧
    ¬ (∀ (a : Vec ℚ) (sm : SubMap ℚ) (φ : ℕ → MvPolynomial ℕ ℚ), (Expr.v a).Canon →
      (∀ kv ∈ sm, kv.1.OK ∧ kv.2.Canon) → (sm.map (·.1.id)).Nodup → Simul sm φ →
      ∃ b, a.substMap sm = .ok b ∧
        (Expr.v b).denGrid = (Expr.v a).denGrid.map (fun row => row.map (bind₁ φ))) := by
  have hne : (X 0 : MvPolynomial ℕ ℚ) ≠ X 1 := fun h => absurd (X_injective h) (by decide)
  have hok : ∀ kv ∈ ([(wx, .var wy), (wy, .var wx)] : SubMap ℚ), kv.1.OK ∧ kv.2.Canon := by
    simp [wv_ok, Scalar.Canon]
  constructor
  · intro h
    obtain ⟨b, b', h1, h2, h3⟩ := h wVv [(wx, .var wy), (wy, .var wx)] [(wy, .var wx), (wx, .var wy)]
      (Expr.okDeg_canon 1 (by decide +kernel)) hok (by decide +kernel) (List.Perm.swap _ _ _)
    rw [substMap_array_order_false.1, Except.ok.injEq] at h1
    rw [substMap_array_order_false.2, Except.ok.injEq] at h2
    subst h1 h2
    simp [Expr.denGrid, Expr.grid, Vec.entries, Scalar.den, wv] at h3
  · intro h
    obtain ⟨b, h1, h2⟩ := h wVv [(wx, .var wy), (wy, .var wx)] (simul [(wx, .var wy), (wy, .var wx)])
      (Expr.okDeg_canon 1 (by decide +kernel)) hok (by decide +kernel)
      (simul_spec (by decide +kernel))
    rw [substMap_array_order_false.1, Except.ok.injEq] at h1
    subst h1
    simp [Expr.denGrid, Expr.grid, Vec.entries, Scalar.den, wv, wVv, simul] at h2

/-- Evaluating the vector `(x^2*y*z + y^2*x*w)` at `x = 2`, `y = z = w = 1` gives 8 or 6, depending on
the order in which the map is visited; 6 is right.  With `w` visited after `z` the two terms become
rearrangements of each other and are merged. -/
theorem substMap_array_evaluates_false :
    let a : Vec ℚ := .p [⟨[⟨1, [2, 1, 1], [wx, wy, wz]⟩, ⟨1, [2, 1, 1], [wy, wx, wv 3]⟩]⟩]
    a.substMap [(wz, .k 1), (wv 3, .k 1), (wx, .k 2), (wy, .k 1)] = .ok (.k [8]) ∧
    a.substMap [(wx, .k 2), (wy, .k 1), (wz, .k 1), (wv 3, .k 1)] = .ok (.k [6]) := by
  decide +kernel

/-- Both variables of `(x + 5, 2y)` belong to the environment of the other variables. -/
private theorem wVp_env (w : Var ℚ) (hw : (Expr.v wVp).Mentions w) (i : ℕ) : w.env = (wv i).env := by
  simp only [Expr.Mentions, Expr.grid, wVp, Vec.entries, List.map_cons, List.map_nil, wm1, wm0,
    List.mem_cons, List.not_mem_nil, or_false, exists_eq_or_imp, exists_eq_left, Scalar.Mentions,
    false_or] at hw
  rcases hw with rfl | rfl <;> rfl

private theorem wVp_canon : (Expr.v wVp).Canon := Expr.okDeg_canon 1 (by decide +kernel)

private theorem wVp_terms : (Expr.v wVp).TermsIn (degLE 2) := Expr.okDeg_terms (by decide +kernel)

private theorem wVp_denotes : (Expr.v wVp).Denotes
    (Matrix.of fun (i : Fin 2) (j : Fin 1) => ((Expr.v wVp).entryD i j).den) :=
  Expr.Shape.denotes (by decide +kernel)

/-- `(x + 5, 2y)` with `x := y - 1`. -/
example : ∃ e' M', (Expr.v wVp).substitute wx (.poly ⟨[wm1 1 1 1, wm0 (-1)]⟩) = .ok e' ∧
    e'.Denotes (M' : Matrix (Fin 2) (Fin 1) (MvPolynomial ℕ ℚ)) := by
  obtain ⟨e', h1, _, _, _, h⟩ := substitute_array_quadratic (v := wx)
    (s := .poly ⟨[wm1 1 1 1, wm0 (-1)]⟩) (by decide) wVp_canon wVp_denotes (wv_ok 0)
    (Scalar.okDeg_spec (n := 1) (by decide +kernel)).1 (fun w hw _ => wVp_env w hw 0) wVp_terms
    (Scalar.okDeg_spec (n := 1) (by decide +kernel)).2
  exact ⟨e', _, h1, h⟩

example : wVp.substitute wx (.poly ⟨[wm1 1 1 1, wm0 (-1)]⟩) =
    .ok (.p [⟨[wm0 4, wm1 1 1 1]⟩, ⟨[wm1 2 1 1]⟩]) := by decide +kernel

/-- `{x: z - 1, y: 2y}` fits the hypotheses of `substMap_array_quadratic`. -/
private def wSM : SubMap ℚ := [(wx, .poly ⟨[wm1 1 2 1, wm0 (-1)]⟩), (wy, .mono (wm1 2 1 1))]

example : ∃ e' M', (Expr.v wVp).substMap wSM = .ok e' ∧
    e'.Denotes (M' : Matrix (Fin 2) (Fin 1) (MvPolynomial ℕ ℚ)) := by
  obtain ⟨e', h1, _, _, _, h⟩ := substMap_array_quadratic (sm := wSM) (by decide)
    (by rintro a ⟨⟩) wVp_canon wVp_terms wVp_denotes
    (by
      intro kv hkv
      simp only [wSM, List.mem_cons, List.not_mem_nil, or_false] at hkv
      rcases hkv with rfl | rfl
      · exact ⟨wv_ok 0, (Scalar.okDeg_spec (n := 1) (by decide +kernel)).1⟩
      · exact ⟨wv_ok 1, (Scalar.okDeg_spec (n := 1) (by decide +kernel)).1⟩)
    (by decide +kernel)
    (by
      intro kv hkv w hw hk
      simp only [wSM, List.mem_cons, List.not_mem_nil, or_false] at hkv
      rcases hkv with rfl | rfl
      · simp only [Scalar.Mentions, List.mem_cons, List.not_mem_nil, or_false, exists_eq_or_imp,
          exists_eq_left, wm1, wm0] at hw
        subst hw
        revert hk
        decide +kernel
      · simp only [Scalar.Mentions, List.mem_cons, List.not_mem_nil, or_false, wm1] at hw
        subst hw
        rfl)
    (by
      intro kv hkv
      simp only [wSM, List.mem_cons, List.not_mem_nil, or_false] at hkv
      rcases hkv with rfl | rfl
      · exact (Scalar.okDeg_spec (n := 1) (by decide +kernel)).2
      · exact (Scalar.okDeg_spec (n := 1) (by decide +kernel)).2)
    (by
      intro w hw kv hkv _
      simp only [wSM, List.mem_cons, List.not_mem_nil, or_false] at hkv
      rcases hkv with rfl | rfl <;> exact wVp_env w hw _)
    (simul_spec (by decide +kernel))
  exact ⟨e', _, h1, h⟩

example : wVp.substMap wSM = .ok (.p [⟨[wm0 4, wm1 1 2 1]⟩, ⟨[wm1 4 1 1]⟩]) := by decide +kernel

/-- `(x + 5, 2y) <= (2, 3)` with `x := y - 1`. -/
example : ∃ c', (Con.v ⟨wVp, wVk, .le⟩).substitute wx (.poly ⟨[wm1 1 1 1, wm0 (-1)]⟩) = .ok c' ∧
    ∀ ρ, c'.Sat ρ ↔ (Con.v ⟨wVp, wVk, .le⟩).Sat (Function.update ρ 0
      (Scalar.value ρ (.poly ⟨[wm1 1 1 1, wm0 (-1)]⟩))) := by
  obtain ⟨c', h1, _, _, _, _, h⟩ := substitute_con_array_quadratic (c := .v ⟨wVp, wVk, .le⟩) (v := wx)
    (s := .poly ⟨[wm1 1 1 1, wm0 (-1)]⟩)
    ⟨wVp_canon, Expr.okDeg_canon 1 (by decide +kernel), ⟨2, 1, by decide +kernel, by decide +kernel,
      by decide, by decide⟩, Or.inr (Or.inl rfl)⟩ (wv_ok 0)
    (Scalar.okDeg_spec (n := 1) (by decide +kernel)).1 (fun w hw _ => wVp_env w hw 0)
    (fun w hw _ => by
      simp only [Con.right, Expr.Mentions, Expr.grid, wVk, Vec.entries, List.map_cons, List.map_nil,
        List.mem_cons, List.not_mem_nil, or_false, exists_eq_or_imp, exists_eq_left,
        Scalar.Mentions] at hw)
    (Scalar.okDeg_spec (n := 1) (by decide +kernel)).2 wVp_terms
    (Expr.okDeg_terms (by decide +kernel))
  exact ⟨c', h1, h⟩

end Verif
