import Verif.Props.ArraySubst
import Verif.Props.MatrixSum
import Verif.Props.Sound
import Verif.Props.VecLinear
import Verif.Lemmas.Fixed

/-!
# C34 for matrix constraints

`AsSimplifiedConstraint` of a `MatrixConstraint` fails for most kinds of sides.  Whenever it returns a
constraint, that constraint is right.
-/

namespace Verif

open MvPolynomial

variable {r k : ℕ}

section
variable {R : Type} [Field R] [LinearOrder R] {D : Set (ℕ →₀ ℕ)} {P : Var R → Prop}

/-- No entry of a side has a constant or a first-degree term written twice. -/
def MCon.LowDistinct (c : MCon R) : Prop :=
  (∀ row ∈ c.lhs.entries, ∀ x ∈ row, x.LowDistinct) ∧ ∀ row ∈ c.rhs.entries, ∀ x ∈ row, x.LowDistinct

theorem earr_self_den {e : Expr R} (he : e.Canon) (se : e.Shape r k) (te : e.TermsIn D)
    (hP : ∀ v, e.Mentions v → P v) : EArr r k (fun i j => GoodDen P D (e.entryD i j).den) e := by
  have h := (((EArr.self se).and_all he).and_all te).and_all
    (q := fun x => ∀ v, x.Mentions v → P v) fun row hrow x hx v hv => hP v ⟨row, hrow, x, hx, hv⟩
  refine h.mono fun i j x hi hj hx => ?_
  obtain ⟨⟨⟨h1, h2⟩, h3⟩, h4⟩ := hx
  refine ⟨good_iff.mpr ⟨h2, h3, h4⟩, ?_⟩
  unfold Expr.entryD
  rw [h1]
  rfl

theorem mat_constants {a : Mat R} (hr : 0 < r) (hk : 0 < k) (he : (Expr.m a).Canon)
    (hs : (Expr.m a).Shape r k) (hd : ∀ row ∈ a.entries, ∀ x ∈ row, x.LowDistinct) :
    Go.Ok a.constant fun rows => ∀ P : Var R → Prop, EArr r k (fun i j => GoodDen P D
      (C (coeff 0 ((Expr.m a).entryD i j).den))) (.m (.k rows)) := by
  refine ⟨_, mat_constant_partial hr hk he hs hd, fun P => ?_⟩
  refine earr_m_iff.mpr (Arr.map_iff.mpr (Arr.map_iff.mpr ?_))
  refine Arr.mono (Q := fun i j x => (Expr.m a).entry i j = some x) (EArr.self hs)
    fun i j x _ _ hx => ⟨trivial, ?_⟩
  unfold Expr.entryD
  rw [hx]
  rfl

private theorem negOne_den' : GoodDen P ∅ (-1 : MvPolynomial ℕ R) (.k negOne) :=
  ⟨trivial, by rw [Scalar.den_k]; unfold negOne; simp⟩

theorem minus_post_den (hD : RearrFree D) (hr : 0 < r) (hk : 0 < k) {a b : Expr R}
    {f g : ℕ → ℕ → MvPolynomial ℕ R} (ha : EArr r k (fun i j => GoodDen P D (f i j)) a)
    (hb : EArr r k (fun i j => GoodDen P D (g i j)) b) :
    Go.Post (a.minus b) (EArr r k (fun i j => GoodDen P D (f i j - g i j))) :=
  (Expr.minus_post (mulSem_den (prodIn_const D) hD) negOne_den' hr hk ha hb).mono fun e he =>
    he.mono fun i j x _ _ h => by rwa [mul_neg_one, ← sub_eq_add_neg] at h

variable [IsStrictOrderedRing R]

/-- C34 for matrices, partial: whenever `AsSimplifiedConstraint` returns, it has kept the sense, the
solutions and the variables, moved the constants to the right and everything else to the left.
Missing: it mostly does not return (`mat_simplify_panics`). -/
theorem mat_simplify_partial {c c' : MCon R} (hc : (Con.m c).Canon) (hd : c.LowDistinct)
    (hl : (Expr.m c.lhs).TermsIn D) (hr : (Expr.m c.rhs).TermsIn D) (hD : RearrFree D)
    (h : c.simplify = .ok c') :
    (Con.m c').Canon ∧ c'.sense = c.sense ∧
      (∀ v, (Expr.m c'.lhs).Mentions v → (Expr.m c.lhs).Mentions v ∨ (Expr.m c.rhs).Mentions v) ∧
      (∀ v, ¬ (Expr.m c'.rhs).Mentions v) ∧
      (∀ row ∈ c'.lhs.entries, ∀ x ∈ row, coeff 0 x.den = 0) ∧
      (∀ row ∈ c'.rhs.entries, ∀ y ∈ row, ∃ t, y.den = C t) ∧
      ∀ ρ, (Con.m c').Sat ρ ↔ (Con.m c).Sat ρ := by
  obtain ⟨r, k, s1, s2, hr0, hk0⟩ := hc.shape
  have al := earr_self_den (P := fun v => (Expr.m c.lhs).Mentions v ∨ (Expr.m c.rhs).Mentions v)
    hc.left s1 hl fun v => Or.inl
  have ar := earr_self_den (P := fun v => (Expr.m c.lhs).Mentions v ∨ (Expr.m c.rhs).Mentions v)
    hc.right s2 hr fun v => Or.inr
  have kl := mat_constants (D := D) hr0 hk0 hc.left s1 hd.1
  have kr := mat_constants (D := D) hr0 hk0 hc.right s2 hd.2
  have key : Go.Post c.simplify fun c' => c'.sense = c.sense ∧
      EArr r k (fun i j => GoodDen (fun v => (Expr.m c.lhs).Mentions v ∨ (Expr.m c.rhs).Mentions v) D
        (((Expr.m c.lhs).entryD i j).den - C (coeff 0 ((Expr.m c.lhs).entryD i j).den) -
          (((Expr.m c.rhs).entryD i j).den - C (coeff 0 ((Expr.m c.rhs).entryD i j).den)))) (.m c'.lhs) ∧
      EArr r k (fun i j => GoodDen (fun _ => False) D (C (coeff 0 ((Expr.m c.rhs).entryD i j).den) -
        C (coeff 0 ((Expr.m c.lhs).entryD i j).den))) (.m c'.rhs) := by
    unfold MCon.simplify
    refine kl.bindPost fun ls hls => ?_
    refine (minus_post_den hD hr0 hk0 al (hls _)).bind fun l hl => ?_
    refine kr.bindPost fun rs hrs => ?_
    refine (minus_post_den hD hr0 hk0 ar (hrs _)).bind fun r' hr' => ?_
    refine (minus_post_den hD hr0 hk0 hl hr').bind fun nl hnl => ?_
    refine kr.bindPost fun rs' hrs' => kl.bindPost fun ls' hls' => ?_
    refine (minus_post_den hD hr0 hk0 (hrs' fun _ => False) (hls' _)).bind fun nr hnr => ?_
    cases nl with
    | m nl =>
      cases nr with
      | m nr => exact Go.post_pure ⟨rfl, hnl, hnr⟩
      | _ => exact Go.post_throw
    | _ => exact Go.post_throw
  obtain ⟨k1, k2, k3⟩ := key c' h
  have dl := denotes_iff (M := Matrix.of fun (i : Fin r) (j : Fin k) =>
    (((Expr.m c.lhs).entryD i j).den - C (coeff 0 ((Expr.m c.lhs).entryD i j).den) -
          (((Expr.m c.rhs).entryD i j).den - C (coeff 0 ((Expr.m c.rhs).entryD i j).den)))) |>.mpr
    (k2.mono fun i j x hi hj hx => by rw [extM_of _ hi hj]; exact hx.2)
  have dr := denotes_iff (M := Matrix.of fun (i : Fin r) (j : Fin k) =>
    C (coeff 0 ((Expr.m c.rhs).entryD i j).den) - C (coeff 0 ((Expr.m c.lhs).entryD i j).den)) |>.mpr
    (k3.mono fun i j x hi hj hx => by rw [extM_of _ hi hj]; exact hx.2)
  refine ⟨⟨?_, ?_, ⟨r, k, k2.shape, k3.shape, hr0, hk0⟩, ?_⟩, k1, ?_, ?_, ?_, ?_, fun ρ => ?_⟩
  · exact k2.all fun i j a ha => (good_iff.mp ha.1).1
  · exact k3.all fun i j a ha => (good_iff.mp ha.1).1
  · show c'.sense.OK
    rw [k1]
    exact hc.sense
  · rintro v ⟨row, hrow, x, hx, hv⟩
    obtain ⟨i, j, -, -, hg⟩ := Arr.mem k2 hrow hx
    exact (good_iff.mp hg.1).2.2 v hv
  · rintro v ⟨row, hrow, x, hx, hv⟩
    obtain ⟨i, j, -, -, hg⟩ := Arr.mem k3 hrow hx
    exact (good_iff.mp hg.1).2.2 v hv
  · intro row hrow x hx
    obtain ⟨i, j, -, -, hg⟩ := Arr.mem k2 hrow hx
    rw [hg.2]
    simp
  · intro row hrow x hx
    obtain ⟨i, j, -, -, hg⟩ := Arr.mem k3 hrow hx
    exact ⟨_, by rw [hg.2, ← map_sub]⟩
  · rw [Con.sat_denotes (c := .m c') dl dr, Con.sat_denotes (c := .m c) s1.denotes s2.denotes]
    refine forall_congr' fun i => forall_congr' fun j => ?_
    show c'.sense.Holds _ _ ↔ c.sense.Holds (eval ρ ((Expr.m c.lhs).entryD i j).den)
      (eval ρ ((Expr.m c.rhs).entryD i j).den)
    rw [k1]
    simp only [Matrix.of_apply, map_sub, eval_C]
    refine Iff.trans (iff_of_eq (congrArg₂ _ ?_ rfl)) (Sense.holds_shift c.sense _ _ _)
    ring

end

/-! ## When it returns -/

section
variable {R : Type} [GoNum R]

theorem concretizeMat_all_k {g : List (List (Scalar R))} (hr : 0 < r) (hk : 0 < k)
    (hg : Arr r k (fun _ _ x => ∃ d, x = .k d) g) :
    Go.Post (concretizeMat g) fun m => ∃ ks, m = .k ks := by
  have hno : ∀ q : Scalar R → Bool, (∀ d, q (.k d) = false) → g.flatten.any q = false := by
    intro q hq
    rw [List.any_eq_false]
    intro x hx
    obtain ⟨row, h1, h2⟩ := List.mem_flatten.mp hx
    obtain ⟨-, -, -, -, d, rfl⟩ := Arr.mem hg h1 h2
    rw [hq]
    simp
  have hall : g.flatten.all Scalar.isVar = false := by
    obtain ⟨row, h1, h2⟩ := LArr.get hg hr
    obtain ⟨x, h3, d, rfl⟩ := LArr.get h2 hk
    rw [List.all_eq_false]
    exact ⟨_, List.mem_flatten.mpr ⟨row, List.mem_of_getElem? h1, List.mem_of_getElem? h3⟩, by simp [Scalar.isVar]⟩
  cases g with
  | nil => exact absurd hg.1 (by simp; omega)
  | cons r0 rest =>
    unfold concretizeMat
    refine Go.post_bind' fun _ _ => ?_
    simp only [hno Scalar.isPoly fun _ => rfl, hno Scalar.isMono fun _ => rfl,
      hno Scalar.isVar fun _ => rfl, hall, Bool.false_and, Bool.or_self, Bool.false_eq_true, if_false]
    split
    · exact Go.post_bind' fun vs _ => Go.post_pure ⟨_, rfl⟩
    · exact Go.post_throw

theorem kmat_minus_kmat {xs ys : List (List R)} (hr : 0 < r) (hk : 0 < k)
    (sx : (Expr.m (.k xs)).Shape r k) :
    Go.Post (Expr.minus (.m (.k xs)) (.m (.k ys))) fun e => ∃ ks, e = .m (.k ks) := by
  have key : Go.Post (Expr.minusGen (.m (.k xs)) (.m (.k ys))) fun e => ∃ ks, e = .m (.k ks) := by
    unfold Expr.minusGen
    refine Go.Post.bind (P := fun e => ∃ ks, e = .m (.k ks)) ?_ ?_
    · show Go.Post (kmMul ys (.s (.k negOne))) _
      unfold kmMul
      refine Go.post_bind' fun _ _ => Go.post_bind' fun _ _ => Go.post_bind' fun _ _ =>
        Go.post_bind' fun _ _ => Go.post_bind' fun _ _ => Go.post_pure ⟨_, rfl⟩
    · rintro _ ⟨ks, rfl⟩
      show Go.Post (kmPlus xs (.m (.k ks))) _
      unfold kmPlus
      refine Go.post_bind' fun _ _ => Go.post_bind' fun d hd => Go.post_bind' fun _ _ =>
        Go.post_bind' fun _ _ => Go.Post.bind (P := fun m => ∃ ks, m = .k ks) ?_ ?_
      · unfold matPlusTemplate
        refine Go.post_bind' fun _ _ => Go.post_bind' fun _ _ => Go.post_bind' fun d hd =>
          Go.post_bind' fun _ _ => ?_
        have hx := earr_m_iff.mp <| (EArr.self sx).and_all (q := fun x => x.check = .ok ())
          fun row hrow x hx => by
            obtain ⟨row', -, rfl⟩ := List.mem_map.mp hrow
            obtain ⟨d, -, rfl⟩ := List.mem_map.mp hx
            rfl
        rw [MArr.dims hx hr fun _ _ _ h => h.2, Except.ok.injEq] at hd
        subst hd
        split
        · exact Go.post_throw
        · refine Go.Post.bind (P := Arr r k (fun _ _ x => ∃ d, x = .k d)) ?_ fun g hg =>
            concretizeMat_all_k hr hk hg
          refine LArr.mapM_post (LArr.range r) fun i a _ _ => LArr.mapM_post (LArr.range k) fun j b _ _ => ?_
          have hat : ∀ (zs : List (List R)) (i j : ℤ), Go.Post (Mat.at (.k zs) i j) fun x => ∃ d, x = .k d :=
            fun zs i j => Go.post_bind' fun _ _ => Go.post_bind' fun _ _ => Go.post_pure ⟨_, rfl⟩
          refine (hat _ _ _).bind ?_
          rintro _ ⟨u, rfl⟩
          refine (hat _ _ _).bind ?_
          rintro _ ⟨w, rfl⟩
          exact Go.post_pure ⟨_, rfl⟩
      · rintro _ ⟨ks', rfl⟩
        exact Go.post_bind' fun m hm => by
          cases hm
          exact Go.post_pure ⟨_, rfl⟩
  show Go.Post (Expr.check _ >>= fun _ => Expr.check _ >>= fun _ => Expr.dims _ >>= fun d1 =>
    Expr.dims _ >>= fun d2 => checkDimAdd d1 d2 >>= fun _ => _) _
  exact Go.post_bind' fun _ _ => Go.post_bind' fun _ _ => Go.post_bind' fun _ _ => Go.post_bind' fun _ _ =>
    Go.post_bind' fun _ _ => key

end

section
variable {R : Type} [Field R] [LinearOrder R] {D : Set (ℕ →₀ ℕ)} {f g : ℕ → ℕ → MvPolynomial ℕ R}

/-- A matrix with an entry that has at least two terms is a `PolynomialMatrix`. -/
theorem polymat_of_rich {a : Mat R} {P : Var R → Prop}
    (ha : EArr r k (fun i j => GoodDen P D (f i j)) (.m a))
    (hf : ∃ i < r, ∃ j < k, 1 < (f i j).support.card) : ∃ ps, a = .p ps := by
  obtain ⟨i, hi, j, hj, hij⟩ := hf
  obtain ⟨x, hx, hx'⟩ := EArr.get ha hi hj
  rw [← hx'.2] at hij
  have hx1 : ∃ row ∈ a.entries, x ∈ row := by
    obtain ⟨row, h1, h2⟩ := Option.bind_eq_some_iff.mp hx
    exact ⟨row, List.mem_of_getElem? h1, List.mem_of_getElem? h2⟩
  have hc : ∀ (n : ℕ →₀ ℕ) (t : R), ¬ 1 < (monomial n t).support.card := fun n t =>
    not_lt.mpr ((Finset.card_le_card support_monomial_subset).trans (by simp))
  obtain ⟨row, h1, h2⟩ := hx1
  cases a with
  | p ps => exact ⟨ps, rfl⟩
  | k ks =>
    obtain ⟨row', -, rfl⟩ := List.mem_map.mp h1
    obtain ⟨d, -, rfl⟩ := List.mem_map.mp h2
    exact absurd hij (hc 0 d)
  | v vs =>
    obtain ⟨row', -, rfl⟩ := List.mem_map.mp h1
    obtain ⟨d, -, rfl⟩ := List.mem_map.mp h2
    exact absurd hij (hc _ 1)
  | m ms =>
    obtain ⟨row', -, rfl⟩ := List.mem_map.mp h1
    obtain ⟨d, -, rfl⟩ := List.mem_map.mp h2
    exact absurd hij (hc _ _)

/-- Differences of the kinds that work. -/
theorem mat_minus_rich {a b : Mat R} (hD : RearrFree D) (hr : 0 < r) (hk : 1 < k)
    (ha : EArr r k (fun i j => GoodDen (fun _ => True) D (f i j)) (.m a))
    (hb : EArr r k (fun i j => GoodDen (fun _ => True) D (g i j)) (.m b))
    (ka : (∃ ks, a = .k ks) ∨ (∃ ps, a = .p ps) ∧ ((∃ ks, b = .k ks) ∨
      ∃ i < r, ∃ j < k, 1 < (g i j).support.card))
    (hn : (-1 : R) ≠ 1) :
    Go.Ok (Expr.minus (.m a) (.m b)) fun e =>
      EArr r k (fun i j => GoodDen (fun _ => True) D (f i j - g i j)) e ∧ ∃ m, e = .m m := by
  have h1 := earr_m_iff.mp ha
  have h2 := earr_m_iff.mp hb
  have hk0 : 0 < k := by omega
  show Go.Ok ((Expr.m a).check >>= fun _ => (Expr.m b).check >>= fun _ =>
    (Expr.m a).dims >>= fun d1 => (Expr.m b).dims >>= fun d2 => checkDimAdd d1 d2 >>= fun _ =>
    (Expr.m b).mulF64 negOne >>= fun nb => (Expr.m a).plus nb) _
  simp only [Expr.check, h1.check hr (fun _ _ _ => goodDen_check), Go.ok_bind,
    h2.check hr (fun _ _ _ => goodDen_check), Expr.dims, h1.dims hr (fun _ _ _ => goodDen_check),
    h2.dims hr (fun _ _ _ => goodDen_check), checkDimAdd_same]
  have hneg : Go.Ok ((Expr.m b).mulF64 negOne) fun e =>
      EArr r k (fun i j => GoodDen (fun _ => True) D (-g i j)) e ∧ ∃ m, e = .m m ∧
        ((∃ ks, a = .k ks) ∨ (∃ ps, a = .p ps) ∧ ((∃ ks, m = .k ks) ∨ ∃ ps, m = .p ps)) := by
    obtain ⟨e, e1, e2, e3⟩ := Mat.neg_ok hD hr hk0 h2 fun _ => hn
    obtain ⟨m, rfl⟩ := e3 (Or.inr (by omega))
    refine ⟨_, e1, e2, m, rfl, ka.imp id fun ⟨h3, h4⟩ => ⟨h3, ?_⟩⟩
    rcases h4 with ⟨ks, rfl⟩ | ⟨i, hi, j, hj, h⟩
    · left
      have hp : Go.Post (kmMul ks (.s (.k negOne))) fun e => ∃ ks, e = .m (.k ks) := by
        unfold kmMul
        exact Go.post_bind' fun _ _ => Go.post_bind' fun _ _ => Go.post_bind' fun _ _ =>
          Go.post_bind' fun _ _ => Go.post_bind' fun _ _ => Go.post_pure ⟨_, rfl⟩
      obtain ⟨ks', h⟩ := hp _ e1
      exact ⟨ks', by cases h; rfl⟩
    · right
      refine polymat_of_rich e2 ⟨i, hi, j, hj, ?_⟩
      rwa [support_neg]
  refine Go.Ok.bind hneg fun e he => ?_
  obtain ⟨he1, m, rfl, hm⟩ := he
  have hsum : ∀ e, EArr r k (fun i j => GoodDen (fun _ => True) D (f i j + -g i j)) e →
      EArr r k (fun i j => GoodDen (fun _ => True) D (f i j - g i j)) e := fun e h =>
    h.mono fun i j x _ _ hx => by rwa [← sub_eq_add_neg] at hx
  rcases hm with ⟨ks, rfl⟩ | ⟨⟨ps, rfl⟩, hm⟩
  · exact (kmPlus_mat_ok hr h1 (fun _ _ _ => goodDen_check) (earr_m_iff.mp he1)
      (fun _ _ _ => goodDen_check) (fun _ _ _ _ => stable_goodDen hD _)
      fun _ _ _ _ _ _ hx hy => goodDen_plus hD hx hy).mono fun _ he => ⟨hsum _ he.1, he.2⟩
  · exact (pmPlus_mat_ok hr hk0 h1 (fun _ _ _ => goodDen_check) (earr_m_iff.mp he1)
      (fun _ _ _ => goodDen_check) hm (fun _ _ _ _ => stable_goodDen hD _)
      fun _ _ p _ _ _ hx hy => goodDen_plus (x := .poly p) hD hx hy).mono fun _ he =>
        ⟨hsum _ he.1, he.2.2.2 (by omega)⟩

/-- The side survives the removal of its constants: a `KMatrix`, or a `PolynomialMatrix` with an entry
that has at least two terms besides the constant. -/
def Mat.Rich (a : Mat R) : Prop :=
  (∃ ks, a = .k ks) ∨ (∃ ps, a = .p ps) ∧
    ∃ row ∈ a.entries, ∃ x ∈ row, 1 < (x.den - C (coeff 0 x.den)).support.card

variable [IsStrictOrderedRing R]

private theorem const_step {a : Mat R} {ks : List (List R)} (hD : RearrFree D) (hr : 0 < r) (hk : 1 < k)
    (sa : (Expr.m a).Shape r k)
    (ha : EArr r k (fun i j => GoodDen (fun _ => True) D ((Expr.m a).entryD i j).den) (.m a))
    (hks : EArr r k (fun i j => GoodDen (fun _ => True) D
      (C (coeff 0 ((Expr.m a).entryD i j).den))) (.m (.k ks)))
    (ka : (∃ ks, a = .k ks) ∨ ∃ ps, a = .p ps) :
    Go.Ok (Expr.minus (.m a) (.m (.k ks))) fun e => EArr r k (fun i j => GoodDen (fun _ => True) D
      (((Expr.m a).entryD i j).den - C (coeff 0 ((Expr.m a).entryD i j).den))) e ∧ ∃ m, e = .m m ∧
        ((∃ ks, a = .k ks) → ∃ ks, m = .k ks) := by
  obtain ⟨e, e1, e2, m, rfl⟩ := mat_minus_rich hD hr hk ha hks
    (ka.imp id fun h => ⟨h, Or.inl ⟨_, rfl⟩⟩) (by
      have := one_pos (α := R)
      intro h
      linarith)
  refine ⟨_, e1, e2, m, rfl, ?_⟩
  rintro ⟨ks', rfl⟩
  obtain ⟨ks2, h⟩ := kmat_minus_kmat hr (by omega) sa _ e1
  exact ⟨ks2, by cases h; rfl⟩

/-- C34 for matrices, when it returns: two columns or more, a `KMatrix` or a `Rich` matrix on the left
and on the right; next to a `KMatrix` on the left any `PolynomialMatrix` will do.
`mat_simplify_partial` says what is returned. -/
theorem mat_simplify_returns_partial {c : MCon R} (hk : 1 < k) (hc : (Con.m c).Canon)
    (s1 : (Expr.m c.lhs).Shape r k) (s2 : (Expr.m c.rhs).Shape r k) (hd : c.LowDistinct)
    (hl : (Expr.m c.lhs).TermsIn D) (hr : (Expr.m c.rhs).TermsIn D) (hD : RearrFree D)
    (kl : c.lhs.Rich) (kr : c.rhs.Rich ∨ (∃ ks, c.lhs = .k ks) ∧ ∃ ps, c.rhs = .p ps) :
    ∃ c', c.simplify = .ok c' := by
  have hr0 : 0 < r := by
    obtain ⟨r', k', t1, -, h, -⟩ := hc.shape
    rw [← s1.1, show (Expr.m c.lhs).grid.length = r' from t1.1]
    exact h
  have rich : ∀ a : Mat R, (Expr.m a).Shape r k → (∃ row ∈ a.entries, ∃ x ∈ row,
      1 < (x.den - C (coeff 0 x.den)).support.card) → ∃ i < r, ∃ j < k,
      1 < (((Expr.m a).entryD i j).den - C (coeff 0 ((Expr.m a).entryD i j).den)).support.card := by
    rintro a sa ⟨row, h1, x, h2, h3⟩
    obtain ⟨i, j, hi, hj, h4⟩ := Arr.mem (EArr.self sa) h1 h2
    refine ⟨i, hi, j, hj, ?_⟩
    have : (Expr.m a).entryD i j = x := by
      unfold Expr.entryD
      rw [h4]
      rfl
    rwa [this]
  have al := earr_self_den (P := fun _ => True) hc.left s1 hl fun _ _ => trivial
  have ar := earr_self_den (P := fun _ => True) hc.right s2 hr fun _ _ => trivial
  obtain ⟨ls, hls, hls'⟩ := mat_constants (D := D) hr0 (by omega) hc.left s1 hd.1
  obtain ⟨rs, hrs, hrs'⟩ := mat_constants (D := D) hr0 (by omega) hc.right s2 hd.2
  have hn : (-1 : R) ≠ 1 := by
    have := one_pos (α := R)
    intro h
    linarith
  obtain ⟨_, a1, a2, l, rfl, a3⟩ := const_step hD hr0 hk s1 al (hls' _) (kl.imp id And.left)
  obtain ⟨_, b1, b2, r', rfl, b3⟩ := const_step hD hr0 hk s2 ar (hrs' _)
    (kr.elim (fun h => h.imp id And.left) fun h => Or.inr h.2)
  have hkind : (∃ ks, l = .k ks) ∨ (∃ ps, l = .p ps) ∧ ((∃ ks, r' = .k ks) ∨ ∃ i < r, ∃ j < k,
      1 < (((Expr.m c.rhs).entryD i j).den - C (coeff 0 ((Expr.m c.rhs).entryD i j).den)).support.card) := by
    rcases kl with h | ⟨-, h⟩
    · exact Or.inl (a3 h)
    · refine (kr.elim (fun h' => Or.inr ⟨polymat_of_rich a2 (rich _ s1 h), ?_⟩) fun h' => Or.inl (a3 h'.1))
      exact h'.imp b3 fun h' => rich _ s2 h'.2
  obtain ⟨_, d1, d2, d, rfl⟩ := mat_minus_rich hD hr0 hk a2 b2 hkind hn
  obtain ⟨_, e1, e2, e, rfl⟩ := mat_minus_rich hD hr0 hk (hrs' _) (hls' _) (Or.inl ⟨_, rfl⟩) hn
  refine ⟨⟨d, e, c.sense⟩, ?_⟩
  unfold MCon.simplify
  simp only [show c.lhs.constant = _ from hls, show c.rhs.constant = _ from hrs, Go.ok_bind, a1, b1, d1, e1]
  rfl

end

/-! ## When it never returns -/

section
variable {R : Type} [Field R] [LinearOrder R]

/-- A variable plus zero is not a polynomial. -/
private theorem var_plus_zero_ne {v : Var R} (hv : v.OK) :
    Go.Post (v.plus (.k 0)) fun x => ∀ p, x ≠ .poly p := by
  have hfl : (degLE 1) ⊆ flat := fun _ hd => degLE_two_flat (le_trans (b := 1) hd (by decide))
  have hv' : (Scalar.var v).TermsIn (degLE 1) := by
    show ((Finsupp.single v.id 1).sum fun _ e => e) ≤ 1
    simp
  obtain ⟨t, h1, h2, h3⟩ := plus_smallest_partial (a := .var v) (b := .k 0) hv trivial
    (hv'.mono hfl) trivial
  intro x hx p hp
  rw [show v.plus (.k 0) = _ from h1, Except.ok.injEq] at hx
  subst hx hp
  obtain ⟨w, hw⟩ := h3.2.1.mpr ⟨v.id, by
    rw [h2]
    show X v.id + C 0 = X v.id
    simp⟩
  cases hw

/-- Subtracting its (zero) constants from a matrix of variables never returns. -/
private theorem varmat_never {rows : List (List (Var R))} (hr : 0 < r) (hk : 0 < k)
    (ha : (Expr.m (.v rows)).Canon) (hs : (Expr.m (.v rows)).Shape r k) {ks : List (List R)}
    (hks : (Mat.v rows).constant = .ok ks) :
    Go.Post (Expr.minus (.m (.v rows)) (.m (.k ks))) fun _ => False := by
  have hz : ∀ row ∈ ks, ∀ x ∈ row, x = 0 := by
    have : Go.Post (Mat.v rows).constant fun ks => ∀ row ∈ ks, ∀ x ∈ row, x = 0 := by
      show Go.Post (Mat.dims (.v rows) >>= fun d => if d.2 = 0 then throw .empty else
        pure (rows.map (·.map fun _ => (GoNum.zero : R)))) _
      refine Go.post_bind' fun d _ => ?_
      split
      · exact Go.post_throw
      · refine Go.post_pure fun row hrow x hx => ?_
        obtain ⟨row', -, rfl⟩ := List.mem_map.mp hrow
        obtain ⟨y, -, rfl⟩ := List.mem_map.mp hx
        rfl
    exact this _ hks
  refine Expr.minus_of_gen ?_
  refine Go.Post.bind (P := fun e => ∃ ks', e = .m (.k ks') ∧ ∀ row ∈ ks', ∀ x ∈ row, x = 0) ?_ ?_
  · show Go.Post (kmMul ks (.s (.k negOne))) _
    unfold kmMul
    refine Go.post_bind' fun _ _ => Go.post_bind' fun _ _ => Go.post_bind' fun _ _ =>
      Go.post_bind' fun _ _ => Go.Post.bind (P := fun ds => ∀ row ∈ ds, ∀ x ∈ row, x = 0) ?_ ?_
    · unfold kToDense
      refine Go.post_bind' fun d _ => ?_
      split
      · exact Go.post_throw
      · refine (Go.post_mapM (Q := fun row => ∀ x ∈ row, x = 0) fun row hrow => ?_).mono fun _ h => h.2
        exact (Go.post_mapM (Q := fun x => x = 0) fun j _ => goGet_mem.mono fun x hx =>
          hz row hrow x hx).mono fun _ h => h.2
    · intro ds hds
      refine Go.post_pure ⟨_, rfl, fun row hrow x hx => ?_⟩
      obtain ⟨row', h1, rfl⟩ := List.mem_map.mp hrow
      obtain ⟨y, h2, rfl⟩ := List.mem_map.mp hx
      rw [hds row' h1 y h2]
      exact mul_zero _
  · rintro _ ⟨ks', rfl, hz'⟩
    show Go.Post (vmPlus rows (.m (.k ks'))) _
    unfold vmPlus
    refine Go.post_bind' fun _ _ => Go.post_bind' fun _ _ => Go.post_bind' fun _ _ =>
      Go.post_bind' fun _ _ => Go.post_bind' fun _ _ => ?_
    show Go.Post (vmPlusK rows ks') _
    have hv : ∀ row ∈ rows, ∀ v ∈ row, v.OK := fun row hrow v hv =>
      ha _ (List.mem_map_of_mem hrow) _ (List.mem_map_of_mem hv)
    have hlen : rows.length = r := by simpa [Expr.grid, Mat.entries] using hs.1
    have hw : ∀ row ∈ rows, row.length = k := fun row hrow => by
      simpa using hs.2 _ (List.mem_map_of_mem hrow)
    unfold vmPlusK
    refine Go.Post.bind (P := fun _ => False) ?_ fun _ h => h.elim
    refine (Go.post_mapM (Q := fun _ => False) fun ri hri => ?_).mono fun g hg => ?_
    · have hri' := List.fst_mem_of_mem_zipIdx hri
      refine (Go.post_mapM (Q := fun _ => False) fun xj hxj => ?_).mono fun g hg => ?_
      · refine goGet2_mem.bind fun d ⟨row', h1, h2⟩ => ?_
        rw [hz' row' h1 d h2]
        refine (var_plus_zero_ne (hv _ hri' _ (List.fst_mem_of_mem_zipIdx hxj))).bind fun x hx => ?_
        cases x with
        | poly p => exact absurd rfl (hx p)
        | _ => exact Go.post_throw
      · cases g with
        | nil =>
          have := hg.1
          simp [hw _ hri'] at this
          omega
        | cons x _ => exact hg.2 x (by simp)
    · cases g with
      | nil =>
        have := hg.1
        simp [hlen] at this
        omega
      | cons x _ => exact hg.2 x (by simp)

/-- C34 fails for matrices: a matrix of variables or of monomials on either side, of any shape and with
anything on the other side, and `AsSimplifiedConstraint` does not return. -/
theorem mat_simplify_never {c : MCon R} (hc : (Con.m c).Canon)
    (h : (∃ vs, c.lhs = .v vs) ∨ (∃ ms, c.lhs = .m ms) ∨ (∃ vs, c.rhs = .v vs) ∨ ∃ ms, c.rhs = .m ms) :
    c.simplify.isOk = false := by
  obtain ⟨r, k, s1, s2, hr0, hk0⟩ := hc.shape
  have side : ∀ a : Mat R, (Expr.m a).Canon → (Expr.m a).Shape r k →
      ((∃ vs, a = .v vs) ∨ ∃ ms, a = .m ms) → ∀ ks, a.constant = .ok ks →
      Go.Post (Expr.minus (.m a) (.m (.k ks))) fun _ => False := by
    rintro a ha sa (⟨vs, rfl⟩ | ⟨ms, rfl⟩) ks hks
    · exact varmat_never hr0 hk0 ha sa hks
    · refine Expr.minus_of_gen ?_
      refine Go.Post.bind (P := fun e => ∃ ks', e = .m (.k ks')) ?_ ?_
      · show Go.Post (kmMul ks (.s (.k negOne))) _
        unfold kmMul
        exact Go.post_bind' fun _ _ => Go.post_bind' fun _ _ => Go.post_bind' fun _ _ =>
          Go.post_bind' fun _ _ => Go.post_bind' fun _ _ => Go.post_pure ⟨_, rfl⟩
      · rintro _ ⟨ks', rfl⟩
        show Go.Post (mmPlus ms (.m (.k ks'))) _
        unfold mmPlus
        exact Go.post_bind' fun _ _ => Go.post_bind' fun _ _ => Go.post_bind' fun _ _ =>
          Go.post_bind' fun _ _ => Go.post_bind' fun _ _ => Go.post_throw
  have key : Go.Post c.simplify fun _ => False := by
    unfold MCon.simplify
    refine Go.post_bind' fun ls hls => ?_
    by_cases hl : (∃ vs, c.lhs = .v vs) ∨ ∃ ms, c.lhs = .m ms
    · exact (side _ hc.left s1 hl ls hls).bind fun _ h => h.elim
    · have hr : (∃ vs, c.rhs = .v vs) ∨ ∃ ms, c.rhs = .m ms := by tauto
      exact Go.post_bind' fun _ _ => Go.post_bind' fun rs hrs =>
        (side _ hc.right s2 hr rs hrs).bind fun _ h => h.elim
  cases hx : c.simplify with
  | ok c' => exact (key c' hx).elim
  | error e => rfl

end

/-! ## Counterexamples and examples -/

/-- C34 fails for matrices: with a matrix of variables on a side the type assertion in `Plus` panics, a
matrix of monomials is unsupported, and so is a matrix of polynomials with one variable per entry. -/
theorem mat_simplify_panics :
    MCon.simplify ⟨wMv, wMk, .le⟩ = .error .typeAssert ∧
    MCon.simplify ⟨wMk, wMv, .le⟩ = .error .typeAssert ∧
    MCon.simplify ⟨wMm, wMk, .le⟩ = .error .unsupported ∧
    MCon.simplify ⟨wMk, wMm, .le⟩ = .error .unsupported ∧
    MCon.simplify ⟨.p [[⟨[wm1 1 0 1, wm0 1]⟩, ⟨[wm1 1 1 1, wm0 2]⟩]], .k [[1, 1]], .le⟩ =
      .error .typeAssert := by decide +kernel

/-- One column: the difference is no longer a matrix. -/
theorem mat_simplify_column_panics :
    MCon.simplify ⟨.p [[⟨[wm1 1 0 1, wm1 1 1 1, wm0 1]⟩], [⟨[wm1 1 1 1, wm1 1 2 1, wm0 2]⟩]],
      .k [[1], [1]], .le⟩ = .error .unsupported := by decide +kernel

/-- A constraint `[1 1] ≤ [x+y+1 y+z+2]`. -/
private def wc : MCon ℚ :=
  ⟨.k [[1, 1]], .p [[⟨[wm1 1 0 1, wm1 1 1 1, wm0 1]⟩, ⟨[wm1 1 1 1, wm1 1 2 1, wm0 2]⟩]], .le⟩

example : wc.simplify = .ok ⟨.p [[⟨[wm1 (-1) 0 1, wm1 (-1) 1 1]⟩, ⟨[wm1 (-1) 1 1, wm1 (-1) 2 1]⟩]],
    .k [[0, 1]], .le⟩ := by decide +kernel

private theorem wc_canon : (Con.m wc).Canon :=
  ⟨Expr.okDeg_canon 2 (by decide +kernel), Expr.okDeg_canon 2 (by decide +kernel),
    ⟨1, 2, by decide +kernel, by decide +kernel, by decide, by decide⟩, Or.inr (Or.inl rfl)⟩

example : ∃ c', wc.simplify = .ok c' ∧ ∀ ρ, (Con.m c').Sat ρ ↔ (Con.m wc).Sat ρ := by
  have hd : wc.LowDistinct := by
    constructor <;> simp [wc, Mat.entries, Scalar.LowDistinct, wm1_degs, wm0_degs,
      Finsupp.single_left_inj, Finsupp.single_eq_zero]
  have hl : (Expr.m wc.lhs).TermsIn (degLE 2) := Expr.okDeg_terms (by decide +kernel)
  have hr : (Expr.m wc.rhs).TermsIn (degLE 2) := Expr.okDeg_terms (by decide +kernel)
  obtain ⟨c', h⟩ := mat_simplify_returns_partial (r := 1) (k := 2) (by decide) wc_canon
    (by decide +kernel) (by decide +kernel) hd hl hr rearrFree_degLE_two (Or.inl ⟨_, rfl⟩)
    (Or.inr ⟨⟨_, rfl⟩, _, rfl⟩)
  exact ⟨c', h, (mat_simplify_partial wc_canon hd hl hr rearrFree_degLE_two h).2.2.2.2.2.2⟩

/-- `[x+y+1 y+z+2]` is rich. -/
example : wc.rhs.Rich := by
  refine Or.inr ⟨⟨_, rfl⟩, _, List.mem_singleton.mpr rfl, _, List.mem_cons_self .., ?_⟩
  have h : (Scalar.poly ⟨[wm1 1 0 1, wm1 1 1 1, wm0 1]⟩).den = (X 0 + X 1 + 1 : MvPolynomial ℕ ℚ) := by
    simp [Scalar.den, Poly.den, wm1_den, wm0, Mono.den_of_vars_nil]
    ring
  rw [h]
  refine Finset.one_lt_card.mpr ⟨Finsupp.single 0 1, ?_, Finsupp.single 1 1, ?_, ?_⟩
  · simp [mem_support_iff, coeff_X, coeff_one, Finsupp.single_left_inj]
  · simp [mem_support_iff, coeff_X, coeff_one, Finsupp.single_left_inj]
  · simp [Finsupp.single_left_inj]

end Verif
