import Verif.Lemmas.FormsProg
import Verif.Props.Program

/-!
# C75: a check of the calls a program makes, that guarantees its result

`Prog.checked` looks at the variables and the operations of a program, not at its coefficients, and works at any degree.
If it says yes, the program returns the polynomial it is meant to compute, whatever the coefficients are.
-/

set_option linter.unusedSectionVars false

namespace Verif

open MvPolynomial

variable {R : Type}

/-- The replacements of `SubstituteAccordingTo`. -/
def replacements {n : ℕ} (key : Fin n → Var R) (val : Fin n → Shape) (i : ℕ) : Shape :=
  match (List.finRange n).find? fun j => decide ((key j).id = i) with
  | some j => val j
  | none => .var i

/-- How the terms of the result can be written. -/
def Prog.shape : Prog R → Shape
  | .k _ => .one
  | .var v => .var v.id
  | .plus a b | .minus a b => a.shape.add b.shape
  | .mul a b => a.shape.mul b.shape
  | .pow a n => a.shape.pow n
  | .simp a => ⟨a.shape.ws, true, a.shape.p⟩
  | .deriv a v => a.shape.deriv v.id
  | .subst a v s => a.shape.substAll (fun i => if i = v.id then s.shape else .var i) (fun l => decide (v.id ∈ l)) s.shape.p
  | .substMap a n key val => a.shape.substAll (replacements key fun j => (val j).shape) (fun _ => true)
      ((List.finRange n).any fun j => (val j).shape.p)

/-- No intermediate result can have two terms that are confused. -/
def Prog.checked : Prog R → Bool
  | .k _ | .var _ => true
  | .plus a b | .minus a b => a.checked && b.checked && (a.shape.add b.shape).ok
  | .mul a b => a.checked && b.checked && (a.shape.mul b.shape).ok
  | .pow a n => a.checked && a.shape.powOk n
  | .simp a => a.checked && a.shape.ok
  | .deriv a _ => a.checked
  | .subst a v s => a.checked && s.checked && a.shape.substAllOk (fun i => if i = v.id then s.shape else .var i)
      (fun l => decide (v.id ∈ l)) s.shape.p
  | .substMap a n key val => a.checked && ((List.finRange n).all fun j => (val j).checked) &&
      a.shape.substAllOk (replacements key fun j => (val j).shape) (fun _ => true)
        ((List.finRange n).any fun j => (val j).shape.p)

/-- The program with other coefficients (and other bounds, names, environments of variables). -/
def Prog.map {S : Type} (f : R → S) (g : Var R → Var S) : Prog R → Prog S
  | .k c => .k (f c)
  | .var v => .var (g v)
  | .plus a b => .plus (a.map f g) (b.map f g)
  | .minus a b => .minus (a.map f g) (b.map f g)
  | .mul a b => .mul (a.map f g) (b.map f g)
  | .pow a n => .pow (a.map f g) n
  | .simp a => .simp (a.map f g)
  | .deriv a v => .deriv (a.map f g) (g v)
  | .subst a v s => .subst (a.map f g) (g v) (s.map f g)
  | .substMap a n key val => .substMap (a.map f g) n (fun j => g (key j)) fun j => (val j).map f g

variable [Field R] [LinearOrder R]

theorem Scalar.mentions_terms {s : Scalar R} {m : Mono R} (hm : m ∈ s.terms) {v : Var R} (hv : v ∈ m.vars) :
    s.Mentions v := by
  cases s with
  | k c => rw [List.mem_singleton.mp hm] at hv; cases hv
  | var w => rw [List.mem_singleton.mp hm] at hv; exact List.mem_singleton.mp hv
  | mono m' => rw [List.mem_singleton.mp hm] at hv; exact hv
  | poly p => exact ⟨m, hm, hv⟩

namespace Shape
variable {a : Shape} {f : MvPolynomial ℕ R} {x : Scalar R}

theorem has_simp (hok : a.ok = true) (ha : HasShape a f x) :
    Go.Ok x.asSimplified (HasShape ⟨a.ws, true, a.p⟩ f) := by
  obtain ⟨r, h1, h2⟩ := Scalar.asSimplified_sem (respects_den (ok_consistent hok)) ha.den
  refine ⟨r, h1, h2, fun _ _ => rfl, ?_⟩
  intro p hp
  by_contra hn
  have nx := not_poly ha (Bool.not_eq_true _ ▸ hn)
  cases x with
  | k c =>
    simp only [Scalar.asSimplified, Go.pure_eq, Except.ok.injEq] at h1
    rw [← h1] at hp
    cases hp
  | var v =>
    simp only [Scalar.asSimplified, Go.pure_eq, Except.ok.injEq] at h1
    rw [← h1] at hp
    cases hp
  | mono m =>
    obtain ⟨r', h1', -, h3, -⟩ := Mono.asSimplified_nonpoly (m := m) ha.den.canon
    change m.asSimplified = .ok r at h1
    rw [h1, Except.ok.injEq] at h1'
    exact h3 p (h1' ▸ hp)
  | poly q => exact nx q rfl

theorem has_deriv (ha : HasShape a f x) {v : Var R} (hv : v.OK) :
    Go.Ok (x.derivative v) (HasShape (a.deriv v.id) (pderiv v.id f)) := by
  obtain ⟨r, h1, h2, h3⟩ := derivative_denotes_pderiv ha.den.canon hv
  obtain ⟨h4, h5⟩ := deriv_written ha hv h1
  refine ⟨r, h1, ?_, fun _ _ => rfl, h5⟩
  rw [← DenW.den ha.den, ← h3]
  exact denW_of h2 h4

/-- `Substitute`. -/
theorem has_substitute {b : Shape} {g : MvPolynomial ℕ R} {y : Scalar R} {v : Var R}
    (hok : a.substAllOk (fun i => if i = v.id then b else .var i) (fun l => decide (v.id ∈ l)) b.p = true)
    (ha : HasShape a f x) (hb : HasShape b g y) (hv : v.OK) (henv : SameEnv v x) :
    Go.Ok (x.substitute v y) (HasShape (a.substAll (fun i => if i = v.id then b else .var i)
      (fun l => decide (v.id ∈ l)) b.p) (bind₁ (fun i => if i = v.id then g else X i) f)) := by
  have hsc := hb.den.good.check
  rw [← DenW.den ha.den]
  have hq : ∀ i, (if i = v.id then b else Shape.var i).p = true → b.p = true := by
    intro i h
    split at h
    · exact h
    · cases h
  have hF : ∀ w : Var R, w.OK → (w.id = v.id → w.env = v.env) → Go.Ok (w.substitute v y)
      (HasShape (if w.id = v.id then b else .var w.id) (if w.id = v.id then g else X w.id)) := by
    intro w hw hwe
    rw [var_substitute_eq hw hv hsc]
    refine ⟨_, rfl, ?_⟩
    by_cases h : w.id = v.id
    · rw [if_pos (And.intro h (hwe h)), if_pos h, if_pos h]
      exact hb
    · rw [if_neg (fun hc : w.id = v.id ∧ w.env = v.env => h hc.1), if_neg h, if_neg h]
      exact has_var hw
  have hmono : ∀ m ∈ x.terms, Go.Ok (m.substitute v y) (HasShape (a.substAll (fun i => if i = v.id then b else .var i)
      (fun l => decide (v.id ∈ l)) b.p) (bind₁ (fun i => if i = v.id then g else X i) m.den)) := by
    intro m hm
    have cm := Scalar.terms_canon ha.den.canon m hm
    rw [mono_substitute_eq cm hv hsc]
    split
    · next hin =>
      exact has_substMono hok hq cm (ha.den.written m hm) (decide_eq_true hin) fun w hw =>
        hF w (cm.ok w hw) (henv w (Scalar.mentions_terms hm hw))
    · next hin =>
      refine ⟨_, rfl, has_substKeep cm (ha.den.written m hm) (decide_eq_false hin) fun w hw => ?_⟩
      exact if_neg fun h : w.id = v.id => hin (h ▸ List.mem_map.mpr ⟨w, hw, rfl⟩)
  cases x with
  | k c =>
    refine ⟨.k c, rfl, ?_, fun _ h => (by cases h), fun _ h => (by cases h)⟩
    rw [Scalar.den_k, bind₁_C_right]
    exact denW_k c
  | var w =>
    rw [Scalar.den_var, bind₁_X_right]
    have ow : w.OK := ha.den.canon
    by_cases h : w.id = v.id
    · refine (hF w ow (henv w rfl)).mono fun r hr => ?_
      exact has_substVar (φ := fun i => if i = v.id then g else X i) hq ha
        (decide_eq_true (List.mem_singleton.mpr h.symm)) hr
    · show Go.Ok (w.substitute v y) _
      rw [var_substitute_eq ow hv hsc, if_neg (fun hc : w.id = v.id ∧ w.env = v.env => h hc.1), if_neg h]
      refine ⟨_, rfl, ?_, fun _ h => (by cases h), fun _ h => (by cases h)⟩
      refine denW_of (s := .var w) ow ?_
      intro m hm hne
      have hw := ha.den.written m hm hne
      rw [List.mem_singleton.mp hm] at hw ⊢
      refine List.mem_dedup.mpr (List.mem_flatMap.mpr ⟨_, hw, ?_⟩)
      have : decide (v.id ∈ w.toMono.writing.1) = false := by
        refine decide_eq_false ?_
        intro hc
        exact h (List.mem_singleton.mp hc).symm
      rw [if_neg (show ¬ decide (v.id ∈ w.toMono.writing.1) = true by rw [this]; simp)]
      exact List.mem_singleton.mpr rfl
  | mono m => exact hmono m (List.mem_singleton.mpr rfl)
  | poly p =>
    show Go.Ok (p.substitute v y) _
    unfold Poly.substitute
    rw [GoodL.check ha.den.canon.1 ha.den.goodW.univ, hv.check, hsc, Go.ok_bind, Go.ok_bind, Go.ok_bind]
    refine (has_sumFold hok (ha.poly p rfl) (l := p.monos) hmono).bind fun s hs => ?_
    have h2 : (a.substAll (fun i => if i = v.id then b else .var i) (fun l => decide (v.id ∈ l)) b.p).ok = true := by
      unfold substAllOk at hok
      rw [Bool.and_eq_true] at hok
      exact hok.2
    exact has_simp h2 hs

/-- `SubstituteAccordingTo`. -/
theorem has_substMap {T : ℕ → Shape} {φ : ℕ → MvPolynomial ℕ R} {q : Bool} {sm : SubMap R}
    (hok : a.substAllOk T (fun _ => true) q = true) (hq : ∀ i, (T i).p = true → q = true) (ha : HasShape a f x)
    (hsm : ∀ kv ∈ sm, kv.1.OK ∧ kv.2.Canon)
    (hF : ∀ w : Var R, w.OK → x.Mentions w → HasShape (T w.id) (φ w.id) ((sm.lookup w).getD (.var w))) :
    Go.Ok (x.substMap sm) (HasShape (a.substAll T (fun _ => true) q) (bind₁ φ f)) := by
  rw [← DenW.den ha.den]
  have hF' : ∀ w : Var R, w.OK → x.Mentions w → Go.Ok (w.substMap sm) (HasShape (T w.id) (φ w.id)) := by
    intro w hw hm
    rw [var_substMap_eq hw hsm]
    exact ⟨_, rfl, hF w hw hm⟩
  have hmono : ∀ m ∈ x.terms, Go.Ok (m.substMap sm) (HasShape (a.substAll T (fun _ => true) q) (bind₁ φ m.den)) := by
    intro m hm
    have cm := Scalar.terms_canon ha.den.canon m hm
    rw [mono_substMap_eq cm hsm]
    exact has_substMono hok hq cm (ha.den.written m hm) rfl fun w hw =>
      hF' w (cm.ok w hw) (Scalar.mentions_terms hm hw)
  cases x with
  | k c =>
    refine ⟨.k c, rfl, ?_, fun _ h => (by cases h), fun _ h => (by cases h)⟩
    rw [Scalar.den_k, bind₁_C_right]
    exact denW_k c
  | var w =>
    rw [Scalar.den_var, bind₁_X_right]
    exact (hF' w ha.den.canon rfl).mono fun r hr => has_substVar hq ha rfl hr
  | mono m => exact hmono m (List.mem_singleton.mpr rfl)
  | poly p =>
    show Go.Ok (p.substMap sm) _
    unfold Poly.substMap
    rw [GoodL.check ha.den.canon.1 ha.den.goodW.univ, checkSubMap_ok hsm, Go.ok_bind, Go.ok_bind]
    exact has_sumFold hok (ha.poly p rfl) (l := p.monos) hmono

end Shape

/-- What is known of the result of a checked program. -/
structure Computed (p : Prog R) (e : Scalar R) : Prop where
  run : p.run = .ok e
  has : HasShape p.shape p.meaning e
  names : ∀ w, e.Mentions w → p.Names w

/-- `SubstituteAccordingTo` with results of checked programs. -/
theorem has_replace {U : Var R → Prop} (hU : ∀ v, U v → v.OK) (hc : ∀ v w, U v → U w → v.id = w.id → v = w) {n : ℕ}
    {key : Fin n → Var R} (hkU : ∀ j, U (key j)) (hk : Function.Injective key) {sh : Fin n → Shape}
    {g : Fin n → MvPolynomial ℕ R} {y : Fin n → Scalar R} (hy : ∀ j, HasShape (sh j) (g j) (y j)) {a : Shape}
    {f : MvPolynomial ℕ R} {x : Scalar R}
    (h : a.substAllOk (replacements key sh) (fun _ => true) ((List.finRange n).any fun j => (sh j).p) = true)
    (hx : HasShape a f x) (hUx : ∀ w, x.Mentions w → U w) :
    ∃ r, x.substMap ((List.finRange n).map fun j => (key j, y j)) = .ok r ∧
      HasShape (a.substAll (replacements key sh) (fun _ => true) ((List.finRange n).any fun j => (sh j).p))
        (bind₁ (fun i => open Classical in if h : ∃ j : Fin n, (key j).id = i then g h.choose else X i) f) r ∧
      ∀ w, r.Mentions w → x.Mentions w ∨ ∃ j, (y j).Mentions w := by
  have hinj : ∀ i j, (key i).id = (key j).id → i = j := fun i j hij =>
    hk (hc _ _ (hkU i) (hkU j) hij)
  set sm : SubMap R := (List.finRange n).map (fun j => (key j, y j)) with hsm
  have hmem : ∀ kv, kv ∈ sm ↔ ∃ j, (key j, y j) = kv := by
    intro kv
    simp [hsm]
  have hok : ∀ kv ∈ sm, kv.1.OK ∧ kv.2.Canon := by
    rintro _ hkv
    obtain ⟨j, rfl⟩ := (hmem _).mp hkv
    exact ⟨hU _ (hkU j), (hy j).den.canon⟩
  have hnd : (sm.map (·.1)).Nodup := by
    rw [hsm, List.map_map]
    exact (List.nodup_finRange n).map hk
  have hrep : ∀ i, (replacements key sh i).p = true →
      ((List.finRange n).any fun j => (sh j).p) = true := by
    intro i hi
    unfold replacements at hi
    split at hi
    · next j _ => exact List.any_eq_true.mpr ⟨j, List.mem_finRange j, hi⟩
    · cases hi
  have hF : ∀ w : Var R, w.OK → x.Mentions w → HasShape (replacements key sh w.id)
      (open Classical in if h : ∃ j : Fin n, (key j).id = w.id then g h.choose else X w.id)
      ((sm.lookup w).getD (.var w)) := by
    intro w hw hm
    by_cases hex : ∃ j : Fin n, (key j).id = w.id
    · obtain ⟨j, hj⟩ := hex
      have hkw : key j = w := hc _ _ (hkU j) (hUx w hm) hj
      have e1 : sm.lookup w = some (y j) := (lookup_iff hnd).mpr ((hmem _).mpr ⟨j, by rw [hkw]⟩)
      have e2 : replacements key sh w.id = sh j := by
        unfold replacements
        split
        · next i hi =>
          have := List.find?_some hi
          rw [hinj i j ((of_decide_eq_true this).trans hj.symm)]
        · next hi =>
          have := List.find?_eq_none.mp hi j (List.mem_finRange j)
          exact absurd (decide_eq_true hj) this
      have hex : ∃ i : Fin n, (key i).id = w.id := ⟨j, hj⟩
      have e3 : hex.choose = j := hinj _ _ (hex.choose_spec.trans hj.symm)
      rw [e1, e2, dif_pos hex, e3]
      exact hy j
    · have e1 : sm.lookup w = none := by
        cases h' : sm.lookup w with
        | none => rfl
        | some s =>
          obtain ⟨j, hj⟩ := (hmem _).mp ((lookup_iff hnd).mp h')
          rw [Prod.mk.injEq] at hj
          exact absurd ⟨j, by rw [hj.1]⟩ hex
      have e2 : replacements key sh w.id = .var w.id := by
        unfold replacements
        split
        · next i hi =>
          have := List.find?_some hi
          exact absurd ⟨i, of_decide_eq_true this⟩ hex
        · rfl
      rw [e1, e2, dif_neg hex]
      exact Shape.has_var hw
  obtain ⟨r, r1, r2⟩ := Shape.has_substMap h hrep hx hok
    (φ := fun i => open Classical in if h : ∃ j : Fin n, (key j).id = i then g h.choose else X i) hF
  have r5 := substMap_mentions hx.den.canon hok r1
  refine ⟨r, r1, r2, fun w hw => ?_⟩
  rcases r5 w hw with h' | ⟨kv, hkv, h'⟩
  · exact .inl h'
  · obtain ⟨j, rfl⟩ := (hmem _).mp hkv
    exact .inr ⟨j, h'⟩

theorem Prog.run_checked {p : Prog R} (h : p.checked = true) {U : Var R → Prop}
    (hU : ∀ v, U v → v.OK) (hc : ∀ v w, U v → U w → v.id = w.id → v = w)
    (hp : ∀ v, p.Names v → U v) (hk : p.Keys) : ∃ e, Computed p e := by
  induction p with
  | k c => exact ⟨.k c, rfl, Shape.has_one c, fun w h => h.elim⟩
  | var v => exact ⟨.var v, rfl, Shape.has_var (hU v (hp v rfl)), by rintro w rfl; rfl⟩
  | plus a b iha ihb =>
    simp only [Prog.checked, Bool.and_eq_true] at h
    obtain ⟨x, hx⟩ := iha h.1.1 (fun v hv => hp v (.inl hv)) hk.1
    obtain ⟨y, hy⟩ := ihb h.1.2 (fun v hv => hp v (.inr hv)) hk.2
    obtain ⟨r, r1, r2⟩ := Shape.has_add h.2 hx.has hy.has
    obtain ⟨r', r1', -, r5⟩ := plus_total hx.has.den.canon hy.has.den.canon
    obtain rfl : r = r' := by rw [r1] at r1'; cases r1'; rfl
    refine ⟨r, ?_, r2, fun w hw => (r5 w hw).imp (hx.names w) (hy.names w)⟩
    simp only [Prog.run, hx.run, hy.run, Go.ok_bind, r1]
  | minus a b iha ihb =>
    simp only [Prog.checked, Bool.and_eq_true] at h
    obtain ⟨x, hx⟩ := iha h.1.1 (fun v hv => hp v (.inl hv)) hk.1
    obtain ⟨y, hy⟩ := ihb h.1.2 (fun v hv => hp v (.inr hv)) hk.2
    obtain ⟨r, r1, r2⟩ := Shape.has_sub h.2 hx.has hy.has
    obtain ⟨r', r1', -, r5⟩ := minus_total hx.has.den.canon hy.has.den.canon
    obtain rfl : r = r' := by rw [r1] at r1'; cases r1'; rfl
    refine ⟨r, ?_, r2, fun w hw => (r5 w hw).imp (hx.names w) (hy.names w)⟩
    simp only [Prog.run, hx.run, hy.run, Go.ok_bind, r1]
  | mul a b iha ihb =>
    simp only [Prog.checked, Bool.and_eq_true] at h
    obtain ⟨x, hx⟩ := iha h.1.1 (fun v hv => hp v (.inl hv)) hk.1
    obtain ⟨y, hy⟩ := ihb h.1.2 (fun v hv => hp v (.inr hv)) hk.2
    obtain ⟨r, r1, r2⟩ := Shape.has_mul h.2 hx.has hy.has
    obtain ⟨r', r1', -, r5⟩ := mul_total hx.has.den.canon hy.has.den.canon
    obtain rfl : r = r' := by rw [r1] at r1'; cases r1'; rfl
    refine ⟨r, ?_, r2, fun w hw => (r5 w hw).imp (hx.names w) (hy.names w)⟩
    simp only [Prog.run, hx.run, hy.run, Go.ok_bind, r1]
  | pow a n iha =>
    simp only [Prog.checked, Bool.and_eq_true] at h
    obtain ⟨x, hx⟩ := iha h.1 hp hk
    obtain ⟨r, r1, r2⟩ := Shape.has_power hx.has n h.2
    obtain ⟨r', r1', -, r5⟩ := power_total hx.has.den.canon (Int.natCast_nonneg n)
    obtain rfl : r = r' := by rw [r1] at r1'; cases r1'; rfl
    refine ⟨r, ?_, r2, fun w hw => hx.names w (r5 w hw)⟩
    simp only [Prog.run, hx.run, Go.ok_bind, r1]
  | simp a iha =>
    simp only [Prog.checked, Bool.and_eq_true] at h
    obtain ⟨x, hx⟩ := iha h.1 hp hk
    obtain ⟨r, r1, r2⟩ := Shape.has_simp h.2 hx.has
    obtain ⟨r', r1', -, r5⟩ := asSimplified_total hx.has.den.canon
    obtain rfl : r = r' := by rw [r1] at r1'; cases r1'; rfl
    refine ⟨r, ?_, r2, fun w hw => hx.names w (r5 w hw)⟩
    simp only [Prog.run, hx.run, Go.ok_bind, r1]
  | deriv a v iha =>
    obtain ⟨x, hx⟩ := iha h (fun v hv => hp v (.inl hv)) hk
    have hv : v.OK := hU v (hp v (.inr rfl))
    obtain ⟨r, r1, r2⟩ := Shape.has_deriv hx.has hv
    obtain ⟨r', r1', -, r5⟩ := derivative_total hx.has.den.canon hv
    obtain rfl : r = r' := by rw [r1] at r1'; cases r1'; rfl
    refine ⟨r, ?_, r2, fun w hw => .inl (hx.names w (r5 w hw))⟩
    simp only [Prog.run, hx.run, Go.ok_bind, r1]
  | subst a v s iha ihs =>
    simp only [Prog.checked, Bool.and_eq_true] at h
    obtain ⟨x, hx⟩ := iha h.1.1 (fun v hv => hp v (.inl hv)) hk.1
    obtain ⟨y, hy⟩ := ihs h.1.2 (fun v hv => hp v (.inr (.inr hv))) hk.2
    have hv : v.OK := hU v (hp v (.inr (.inl rfl)))
    have henv : SameEnv v x := by
      intro w hw hi
      rw [hc w v (hp w (.inl (hx.names w hw))) (hp v (.inr (.inl rfl))) hi]
    obtain ⟨r, r1, r2⟩ := Shape.has_substitute h.2 hx.has hy.has hv henv
    obtain ⟨r', r1', -, r5⟩ := substitute_total hx.has.den.canon hv hy.has.den.canon
    obtain rfl : r = r' := by rw [r1] at r1'; cases r1'; rfl
    refine ⟨r, ?_, ?_, fun w hw => (r5 w hw).elim (fun h => .inl (hx.names w h)) (fun h => .inr (.inr (hy.names w h)))⟩
    · simp only [Prog.run, hx.run, hy.run, Go.ok_bind, r1]
    · have e : (Prog.subst a v s).meaning = bind₁ (fun i => if i = v.id then s.meaning else X i) a.meaning := by
        simp only [Prog.meaning]
      rw [e]
      exact r2
  | substMap a n key val iha ihs =>
    simp only [Prog.checked, Bool.and_eq_true, List.all_eq_true] at h
    obtain ⟨x, hx⟩ := iha h.1.1 (fun v hv => hp v (.inl hv)) hk.1
    have hy' := fun j => ihs j (h.1.2 j (List.mem_finRange j)) (fun v hv => hp v (.inr (.inr ⟨j, hv⟩))) (hk.2.2 j)
    choose y hy using hy'
    obtain ⟨r, r1, r2, r3⟩ := has_replace hU hc (fun j => hp _ (.inr (.inl ⟨j, rfl⟩))) hk.2.1 (fun j => (hy j).has) h.2 hx.has
      fun w hw => hp w (.inl (hx.names w hw))
    refine ⟨r, ?_, r2, ?_⟩
    · simp only [Prog.run, hx.run, Go.ok_bind]
      rw [mapM_pairs _ key (g := y) (fun j _ => (hy j).run), Go.ok_bind]
      exact r1
    · intro w hw
      rcases r3 w hw with h' | ⟨j, h'⟩
      · exact .inl (hx.names w h')
      · exact .inr (.inr ⟨j, (hy j).names w h'⟩)

/-- C75: if the check says yes, the program does not panic and returns the polynomial it is meant to compute, well formed,
with terms as the check foresaw and no new variable. -/
theorem program_checked {p : Prog R} (h : p.checked = true) (hv : p.VarsOK) (hk : p.Keys) :
    ∃ e, p.run = .ok e ∧ e.Canon ∧ e.den = p.meaning ∧ (∀ m ∈ e.terms, m.vars ≠ [] → m.writing ∈ p.shape.ws) ∧
      ∀ w, e.Mentions w → p.Names w := by
  obtain ⟨e, he⟩ := Prog.run_checked h hv.ok hv.same (fun _ h => h) hk
  exact ⟨e, he.run, he.has.den.canon, he.has.den.den, he.has.den.written, he.names⟩

/-- C75: the value at every assignment. -/
theorem program_checked_value {p : Prog R} (h : p.checked = true) (hv : p.VarsOK) (hk : p.Keys) :
    ∃ e, p.run = .ok e ∧ ∀ ρ, e.value ρ = eval ρ p.meaning := by
  obtain ⟨e, h1, -, h3, -⟩ := program_checked h hv hk
  exact ⟨e, h1, fun ρ => by unfold Scalar.value; rw [h3]⟩

omit [Field R] [LinearOrder R] in
/-- C75: the answer of the check does not depend on the coefficients: it is the same for a program with its coefficients
(in any field) replaced. -/
theorem checked_coeffs {S : Type} {p : Prog R} (f : R → S) (g : Var R → Var S) (hg : ∀ v, (g v).id = v.id) :
    (p.map f g).checked = p.checked ∧ (p.map f g).shape = p.shape := by
  induction p with
  | k c => exact ⟨rfl, rfl⟩
  | var v => exact ⟨rfl, by simp only [Prog.map, Prog.shape, hg]⟩
  | plus a b iha ihb => simp only [Prog.map, Prog.checked, Prog.shape, iha.1, iha.2, ihb.1, ihb.2, and_self]
  | minus a b iha ihb => simp only [Prog.map, Prog.checked, Prog.shape, iha.1, iha.2, ihb.1, ihb.2, and_self]
  | mul a b iha ihb => simp only [Prog.map, Prog.checked, Prog.shape, iha.1, iha.2, ihb.1, ihb.2, and_self]
  | pow a n iha => simp only [Prog.map, Prog.checked, Prog.shape, iha.1, iha.2, and_self]
  | simp a iha => simp only [Prog.map, Prog.checked, Prog.shape, iha.1, iha.2, and_self]
  | deriv a v iha => simp only [Prog.map, Prog.checked, Prog.shape, iha.1, iha.2, hg, and_self]
  | subst a v s iha ihs => simp only [Prog.map, Prog.checked, Prog.shape, iha.1, iha.2, ihs.1, ihs.2, hg, and_self]
  | substMap a n key val iha ihs =>
    have e1 : (fun j => ((val j).map f g).shape) = fun j => (val j).shape := funext fun j => (ihs j).2
    have e2 : (fun j => ((val j).map f g).checked) = fun j => (val j).checked := funext fun j => (ihs j).1
    have e3 : (fun j => ((val j).map f g).shape.p) = fun j => (val j).shape.p := funext fun j => by rw [(ihs j).2]
    have e4 : ∀ sh : Fin n → Shape, replacements (fun j => g (key j)) sh = replacements key sh := by
      intro sh
      funext i
      simp only [replacements, hg]
    simp only [Prog.map, Prog.checked, Prog.shape, iha.1, iha.2, e1, e2, e3, e4, and_self]

/-! ## Examples -/

/-- `(2 x^2 y + 3 (x y) y) - x^3` and then the derivative by `x`, and `x` replaced by `y + 1`. -/
private def wProg : Prog ℚ :=
  .subst (.deriv (.minus (.plus (.mul (.k 2) (.mul (.pow (.var wx) 2) (.var wy)))
    (.mul (.k 3) (.mul (.mul (.var wx) (.var wy)) (.var wy)))) (.pow (.var wx) 3)) wx) wx (.plus (.var wy) (.k 1))

private theorem wProg_checked : wProg.checked = true := by decide +kernel

/-- A cubic program of two variables passes the check (it is not `Quadratic`). -/
example : ∃ e, wProg.run = .ok e ∧ e.den = wProg.meaning := by
  obtain ⟨e, h1, -, h2, -⟩ := program_checked wProg_checked (varsOK_of (by
    intro v hv
    simp only [wProg, Prog.Names] at hv
    tauto)) (by simp [wProg, Prog.Keys])
  exact ⟨e, h1, h2⟩

/-- `x^2 y + x (y^2)` fails it, and is computed wrongly (`program_false`). -/
example : wCubic.checked = false := by decide +kernel

/-- The order of factors matters: `x^2 y + x y^2` passes if `x y^2` is `(x y) y`, not if it is `x (y y)`, which the library
writes `y^2 x`. -/
example : (Prog.plus (.mul (.pow (.var wx) 2) (.var wy)) (.mul (.mul (.var wx) (.var wy)) (.var wy))).checked = true ∧
    (Prog.plus (.mul (.pow (.var wx) 2) (.var wy)) (.mul (.var wx) (.mul (.var wy) (.var wy)))).checked = false := by
  decide +kernel

end Verif
