import Verif.Lemmas.HeapSpec

/-!
# C10 for all kinds of expressions and with recovered panics

For every memory and every receiver, well formed or not: what a call of `DerivativeWrt` returns, what
it writes, and what the receiver stands for afterwards, also when the call panics.
-/

set_option linter.unusedSectionVars false

namespace Verif

variable {R : Type} [GoNum R]

/-! ## What a call leaves behind, on values -/

/-- The monomial after a call that may panic. -/
def Mono.afterCall (v : Var R) (m : Mono R) : Mono R :=
  match m.derivative v with
  | .ok _ => m.afterDerivative v
  | .error _ => m

/-- The monomial after two calls. -/
def Mono.afterCall2 (v : Var R) (m : Mono R) : Mono R :=
  match m.derivative v with
  | .ok _ => (m.afterDerivative v).afterDerivative v
  | .error _ => m

def Poly.afterCall (v : Var R) (p : Poly R) : Poly R :=
  match p.derivative v with
  | .ok _ => ⟨p.monos.map (·.afterDerivative v)⟩
  | .error _ => p

def Scalar.afterCall (v : Var R) (e : Scalar R) : Scalar R :=
  match e.derivative v with
  | .ok _ => e.afterDerivative v
  | .error _ => e

theorem mono_derivative_cases (m : Mono R) (v : Var R) :
    (m.check = .ok () ∧ v.check = .ok () ∧ ∃ x, m.derivative v = .ok x ∧ ((∃ c, x = .k c) ∨ ∃ d, x = .mono d)) ∨
      ∃ e, m.derivative v = .error e ∧ (m.check = .ok () → v.check = .error e) := by
  unfold Mono.derivative
  cases hm : m.check with
  | error e => exact Or.inr ⟨e, rfl, fun h => by cases h⟩
  | ok u =>
    cases hv : v.check with
    | error e => exact Or.inr ⟨e, rfl, fun _ => rfl⟩
    | ok u' =>
      left
      refine ⟨rfl, rfl, ?_⟩
      simp only [Go.ok_bind]
      cases hf : findVar v m.vars with
      | none => exact ⟨_, rfl, Or.inl ⟨_, rfl⟩⟩
      | some i =>
        have hi : i < m.exps.length := by
          rw [Mono.check_lengths.mp hm]
          exact findVar_lt hf
        simp only [List.getElem?_eq_getElem hi]
        split
        · exact ⟨_, rfl, Or.inl ⟨_, rfl⟩⟩
        · split
          · exact ⟨_, rfl, Or.inr ⟨_, rfl⟩⟩
          · exact ⟨_, rfl, Or.inr ⟨_, rfl⟩⟩

theorem mono_after_check (m : Mono R) (v : Var R) : (m.afterDerivative v).check = m.check := by
  have h : (m.afterDerivative v).exps.length = m.exps.length ∧ (m.afterDerivative v).vars = m.vars := by
    unfold Mono.afterDerivative
    split
    · exact ⟨rfl, rfl⟩
    · split
      · exact ⟨rfl, rfl⟩
      · exact ⟨by simp, rfl⟩
  unfold Mono.check
  rw [h.1, h.2]

/-! ## Monomials -/

theorem mono_spec (v : Var R) (m : HMono R) (h : Heap R) (ha : LM.Valid h.exps m) :
    Spec LM LS (pMonoDerivative v) (·.derivative v) (Mono.afterCall v) m h := by
  have hma : m.addr < h.exps.length := ha _ (by simp [LM])
  rcases mono_derivative_cases (m.load h.exps) v with ⟨hm, hv, x, hx, -⟩ | ⟨e, he, hve⟩
  · obtain ⟨⟨y, h'⟩, hr1, hr⟩ := HMono.derivative_checked hma hm hv
    simp only at hr
    have hrun : pMonoDerivative v m h = (.ok y, { h with exps := h' }) := by
      unfold pMonoDerivative
      rw [hr1]
    refine ⟨?_, ?_, ?_, ?_, ?_, ?_⟩
    · rw [hrun]
      exact hr.value.symm
    · rw [hrun]; exact hr.len
    · rw [hrun]
    · rw [hrun]
      intro a h1 h2
      exact hr.frame a h1 fun h3 => h2 (by simp [LM, h3])
    · rw [hrun]
      show m.load h' = Mono.afterCall v (m.load h.exps)
      unfold Mono.afterCall
      rw [hx]
      exact hr.self
    · rw [hrun]
      intro b hb a h1
      cases hb
      have := hr.addrs a h1
      simpa [LM] using this
  · have hd : m.derivative v h.exps = .error e := by
      unfold HMono.derivative
      cases hm : (m.load h.exps).check with
      | error e' =>
        have : (m.load h.exps).derivative v = .error e' := by
          unfold Mono.derivative
          rw [hm]
          rfl
        rw [this] at he
        cases he
        rfl
      | ok u => rw [hve hm]; rfl
    have hrun : pMonoDerivative v m h = (.error e, h) := by
      unfold pMonoDerivative
      rw [hd]
    refine ⟨?_, ?_, ?_, ?_, ?_, ?_⟩
    · rw [hrun]
      exact he.symm
    · rw [hrun]
    · rw [hrun]
    · rw [hrun]; exact fun _ _ _ => rfl
    · rw [hrun]
      show m.load h.exps = Mono.afterCall v (m.load h.exps)
      unfold Mono.afterCall
      rw [he]
    · rw [hrun]
      intro b hb
      cases hb

theorem prefix_of_getD {h h' : ExpHeap} (hl : h.length ≤ h'.length)
    (hx : ∀ x, x < h.length → h'.getD x [] = h.getD x []) : h <+: h' := by
  rw [List.prefix_iff_eq_take]
  apply List.ext_getElem?
  intro i
  by_cases hi : i < h.length
  · rw [List.getElem?_take, if_pos hi]
    have h3 := hx i hi
    have hi' : i < h'.length := hi.trans_le hl
    rw [List.getD_eq_getElem?_getD, List.getD_eq_getElem?_getD, List.getElem?_eq_getElem hi,
      List.getElem?_eq_getElem hi', Option.getD_some, Option.getD_some] at h3
    rw [List.getElem?_eq_getElem hi, List.getElem?_eq_getElem hi', h3]
  · rw [List.getElem?_take, if_neg hi, List.getElem?_eq_none (by omega)]

theorem mono_safe (v : Var R) (m : HMono R) (h : Heap R) (ha : LM.Valid h.exps m)
    (hs : (LM.load h.exps m).afterCall v = LM.load h.exps m) :
    Safe LM LS (pMonoDerivative v) (·.derivative v) m h := by
  have h1 := mono_spec v m h ha
  refine ⟨h1.value, prefix_of_getD h1.len fun x hx => ?_, h1.pvs, h1.addrs⟩
  by_cases hxm : x = m.addr
  · subst hxm
    have h2 := h1.self
    rw [hs] at h2
    exact congrArg Mono.exps h2
  · exact h1.frame x hx fun h3 => hxm (by simpa [LM] using h3)

/-! ## Allocation -/

theorem alloc_safe {α A β B : Type} {L : Loader α A} {M : Loader β B} {l : List Int} {a : α} {h : Heap R}
    (mk : ℕ → β) (g : B) (h1 : M.load (h.exps ++ [l]) (mk h.exps.length) = g)
    (h2 : ∀ x ∈ M.addrs (mk h.exps.length), x = h.exps.length) :
    Safe L M (fun _ => do let i ← alloc l; pure (mk i)) (fun _ => .ok g) a h := by
  have hrun : ((do let i ← alloc l; pure (mk i)) : PM (Heap R) β) h =
      (.ok (mk h.exps.length), { h with exps := h.exps ++ [l] }) := rfl
  refine ⟨?_, ?_, ?_, ?_⟩
  · rw [hrun]
    exact congrArg Except.ok h1
  · rw [hrun]
    exact List.prefix_append _ _
  · rw [hrun]
  · rw [hrun]
    intro b hb x hx
    cases hb
    rw [h2 x hx]
    simp

theorem new_mono_load {h : ExpHeap} {c : R} {l : List Int} {vs : List (Var R)} :
    HMono.load (h ++ [l]) ⟨c, h.length, vs⟩ = ⟨c, l, vs⟩ := by
  unfold HMono.load
  rw [List.getD_eq_getElem?_getD, List.getElem?_append_right le_rfl]
  simp

/-! ## Polynomials -/

/-- What the loop of `Polynomial.DerivativeWrt` appends for one monomial. -/
def stepVal (v : Var R) (m : Mono R) : Go (List (Mono R)) :=
  if m.vars.isEmpty then .ok []
  else m.derivative v >>= fun x => match x with
    | .mono d => .ok [d]
    | .k c => if GoNum.feq c GoNum.zero then .ok [] else .ok [kToMono c]
    | _ => .error .other

theorem derivStep_eq (v : Var R) (acc : List (Mono R)) (m : Mono R) :
    derivStep v acc m = (stepVal v m).map (acc ++ ·) := by
  unfold derivStep stepVal Mono.isConstant
  by_cases h : m.vars.isEmpty = true
  · rw [if_pos h, if_pos h]
    simp [Go.pure_eq, Go.map_ok]
  · rw [if_neg h, if_neg h]
    cases m.derivative v with
    | error e => rfl
    | ok x =>
      simp only [Go.ok_bind]
      cases x with
      | k c =>
        simp only
        split
        · simp [Go.pure_eq, Go.map_ok]
        · rfl
      | _ => rfl

theorem stepVal_fold (v : Var R) (l : List (Mono R)) : ∀ acc,
    l.foldlM (derivStep v) acc = (l.mapM (stepVal v)).map (fun r => acc ++ r.flatten) := by
  induction l with
  | nil => intro acc; simp [Go.pure_eq, Go.map_ok]
  | cons m l ih =>
    intro acc
    rw [List.foldlM_cons, List.mapM_cons, derivStep_eq]
    cases stepVal v m with
    | error e => rfl
    | ok x =>
      rw [Go.map_ok, Go.ok_bind, Go.ok_bind, ih]
      cases l.mapM (stepVal v) with
      | error e => rfl
      | ok r => simp [Go.ok_bind, Go.map_ok, Go.pure_eq]

theorem contStep_safe (e : HScalar R) (h : Heap R) (he : LS.Valid h.exps e) :
    Safe LS LM.list (fun (x : HScalar R) => (match x with
        | .mono d => pure [d]
        | .k c => if GoNum.feq c GoNum.zero then pure [] else do
            let a ← alloc []
            pure [⟨c, a, []⟩]
        | _ => PM.panic .other : PM (Heap R) (List (HMono R))))
      (fun x => match x with
        | .mono d => .ok [d]
        | .k c => if GoNum.feq c GoNum.zero then .ok [] else .ok [kToMono c]
        | _ => .error .other) e h := by
  cases e with
  | k c =>
    by_cases hc : GoNum.feq c GoNum.zero = true
    · refine (Safe.ret (L := LS) (M := LM.list) (f := fun _ => []) (g := fun _ => []) rfl (fun x hx => ?_)
        he).congr ?_ ?_
      · cases hx
      · simp only [hc, if_true]
      · simp only [LS, HScalar.load, hc, if_true]
    · refine (alloc_safe (L := LS) (M := LM.list) (l := []) (fun i => [(⟨c, i, []⟩ : HMono R)]) [kToMono c] ?_
        ?_).congr ?_ ?_
      · exact congrArg (fun x => [x]) new_mono_load
      · intro x hx
        simpa [Loader.list, LM] using hx
      · simp only [hc, Bool.false_eq_true, if_false]
      · simp only [LS, HScalar.load, hc, Bool.false_eq_true, if_false]
  | mono d =>
    exact (Safe.ret (L := LS) (M := LM.list) (f := fun _ => [d]) (g := fun _ => [d.load h.exps]) rfl
      (fun x hx => by simpa [Loader.list, LM, LS, HScalar.addrs] using hx) he).congr rfl rfl
  | var w => exact Safe.panic.congr rfl rfl
  | poly p => exact Safe.panic.congr rfl rfl

theorem step_spec (v : Var R) (m : HMono R) (h : Heap R) (ha : LM.Valid h.exps m) :
    Spec LM LM.list (pDerivStep v) (stepVal v) (Mono.afterCall v) m h := by
  by_cases hc : m.vars.isEmpty = true
  · have hc' : m.vars = [] := by simpa using hc
    refine ((Safe.ret (L := LM) (M := LM.list) (f := fun _ => []) (g := fun _ => []) rfl (fun x hx => ?_)
        ha).spec ha).congr ?_ ?_ ?_
    · cases hx
    · unfold pDerivStep
      rw [if_pos hc]
    · unfold stepVal
      rw [if_pos (show (LM.load h.exps m).vars.isEmpty = true from hc)]
    · unfold Mono.afterCall
      rw [Mono.afterDerivative_const (m := LM.load h.exps m) hc']
      cases Mono.derivative (LM.load h.exps m) v <;> rfl
  · refine (Spec.bind (mono_spec v m h ha) ha fun b _ h' hb => contStep_safe b h' hb).congr ?_ ?_ rfl
    · unfold pDerivStep
      rw [if_neg hc]
      rfl
    · unfold stepVal
      rw [if_neg (show ¬ (LM.load h.exps m).vars.isEmpty = true from hc)]

theorem step_safe (v : Var R) (m : HMono R) (h : Heap R) (ha : LM.Valid h.exps m)
    (hs : (LM.load h.exps m).afterCall v = LM.load h.exps m) :
    Safe LM LM.list (pDerivStep v) (stepVal v) m h := by
  have h1 := step_spec v m h ha
  refine ⟨h1.value, prefix_of_getD h1.len fun x hx => ?_, h1.pvs, h1.addrs⟩
  by_cases hxm : x = m.addr
  · subst hxm
    have h2 := h1.self
    rw [hs] at h2
    exact congrArg Mono.exps h2
  · exact h1.frame x hx fun h3 => hxm (by simpa [LM] using h3)

theorem lp_addrs (p : HPoly R) : LP.addrs p = LM.list.addrs p.monos := by
  simp only [LP, Loader.list, LM, HScalar.addrs]
  exact List.map_eq_flatMap

theorem spec_of_monos {β B : Type} {M : Loader β B} {f : List (HMono R) → PM (Heap R) β}
    {g : List (Mono R) → Go B} {post : List (Mono R) → List (Mono R)} {p : HPoly R} {h : Heap R}
    (h1 : Spec LM.list M f g post p.monos h) :
    Spec LP M (fun p => f p.monos) (fun p => g p.monos) (fun p => ⟨post p.monos⟩) p h :=
  ⟨h1.value, h1.len, h1.pvs, fun x hx h2 => h1.frame x hx fun h3 => h2 (by rw [lp_addrs]; exact h3),
    congrArg Poly.mk h1.self, fun b hb x hx => by rw [lp_addrs]; exact h1.addrs b hb x hx⟩

theorem safe_of_monos {β B : Type} {M : Loader β B} {f : List (HMono R) → PM (Heap R) β}
    {g : List (Mono R) → Go B} {p : HPoly R} {h : Heap R} (h1 : Safe LM.list M f g p.monos h) :
    Safe LP M (fun p => f p.monos) (fun p => g p.monos) p h :=
  ⟨h1.value, h1.ext, h1.pvs, fun b hb x hx => by rw [lp_addrs]; exact h1.addrs b hb x hx⟩

/-- The last step of `Polynomial.DerivativeWrt`. -/
theorem contPoly_safe (ds : List (List (HMono R))) (h : Heap R) (hd : LM.list.list.Valid h.exps ds) :
    Safe LM.list.list LS (fun (ds : List (List (HMono R))) =>
        (if ds.flatten.isEmpty then pure (.k GoNum.zero) else pure (.poly ⟨ds.flatten⟩) :
          PM (Heap R) (HScalar R)))
      (fun ds => .ok (if ds.flatten.isEmpty then .k GoNum.zero else .poly ⟨ds.flatten⟩)) ds h := by
  have hfl : (LM.list.list.load h.exps ds).flatten = LM.list.load h.exps ds.flatten := by
    simp only [Loader.list, List.map_flatten]
  have hem : (LM.list.list.load h.exps ds).flatten.isEmpty = ds.flatten.isEmpty := by
    rw [hfl]
    show (ds.flatten.map _).isEmpty = _
    rw [List.isEmpty_map]
  by_cases he : ds.flatten.isEmpty = true
  · refine (Safe.ret (L := LM.list.list) (M := LS) (f := fun _ => HScalar.k GoNum.zero)
      (g := fun _ => Scalar.k GoNum.zero) rfl (fun x hx => ?_) hd).congr ?_ ?_
    · cases hx
    · rw [if_pos he]
    · rw [hem, if_pos he]
  · refine (Safe.ret (L := LM.list.list) (M := LS) (f := fun ds => HScalar.poly ⟨ds.flatten⟩)
      (g := fun ds => Scalar.poly ⟨ds.flatten⟩) ?_ (fun x hx => ?_) hd).congr ?_ ?_
    · rw [hfl]
      rfl
    · obtain ⟨m, hm, rfl⟩ := List.mem_map.mp (show x ∈ ds.flatten.map (·.addr) from hx)
      obtain ⟨d, hd1, hd2⟩ := List.mem_flatten.mp hm
      exact List.mem_flatMap.mpr ⟨d, hd1, List.mem_flatMap.mpr ⟨m, hd2, by simp [LM]⟩⟩
    · rw [if_neg he]
    · rw [hem, if_neg he]

theorem poly_derivative_eq (p : Poly R) (v : Var R) : p.derivative v =
    (p.check >>= fun _ => v.check >>= fun _ => p.monos.mapM (stepVal v) >>= fun ds =>
      .ok (if ds.flatten.isEmpty then .k GoNum.zero else .poly ⟨ds.flatten⟩)) := by
  unfold Poly.derivative
  cases p.check with
  | error e => rfl
  | ok u =>
    cases v.check with
    | error e => rfl
    | ok u' =>
      simp only [Go.ok_bind]
      rw [stepVal_fold]
      cases p.monos.mapM (stepVal v) with
      | error e => rfl
      | ok r =>
        simp only [Go.ok_bind, Go.map_ok, List.nil_append]
        split <;> rfl

theorem stepVal_ok {v : Var R} (hv : v.check = .ok ()) {m : Mono R} (hm : m.check = .ok ()) :
    ∃ b, stepVal v m = .ok b := by
  unfold stepVal
  split
  · exact ⟨_, rfl⟩
  · rcases mono_derivative_cases m v with ⟨-, -, x, hx, ⟨c, rfl⟩ | ⟨d, rfl⟩⟩ | ⟨e, -, h⟩
    · rw [hx, Go.ok_bind]
      simp only
      split
      · exact ⟨_, rfl⟩
      · exact ⟨_, rfl⟩
    · rw [hx, Go.ok_bind]
      exact ⟨_, rfl⟩
    · have := h hm
      rw [hv] at this
      cases this

theorem forM_monos {l : List (Mono R)} (h : l.forM Mono.check = .ok ()) : ∀ m ∈ l, m.check = .ok () := by
  induction l with
  | nil => intro m hm; cases hm
  | cons a l ih =>
    have h : (a.check >>= fun _ => l.forM Mono.check) = .ok () := h
    cases ha : a.check with
    | error e => rw [ha] at h; cases h
    | ok u =>
      rw [ha] at h
      rw [List.forall_mem_cons]
      exact ⟨ha, ih h⟩

theorem poly_check_mem {p : Poly R} (h : p.check = .ok ()) {m : Mono R} (hm : m ∈ p.monos) :
    m.check = .ok () := by
  unfold Poly.check at h
  split at h
  · cases h
  · exact forM_monos h m hm

theorem mono_afterCall_ok {v : Var R} (hv : v.check = .ok ()) {m : Mono R} (hm : m.check = .ok ()) :
    m.afterCall v = m.afterDerivative v := by
  unfold Mono.afterCall
  rcases mono_derivative_cases m v with ⟨-, -, x, hx, -⟩ | ⟨e, -, h⟩
  · rw [hx]
  · have := h hm
    rw [hv] at this
    cases this

theorem poly_derivative_ok {v : Var R} (hv : v.check = .ok ()) {p : Poly R} (hp : p.check = .ok ()) :
    ∃ x, p.derivative v = .ok x ∧ ((∃ c, x = .k c) ∨ ∃ q, x = .poly q) := by
  obtain ⟨r, hr⟩ := Go.mapM_ok (stepVal v) (fun _ _ => True) p.monos fun m hm =>
    (stepVal_ok hv (poly_check_mem hp hm)).imp fun b hb => ⟨hb, trivial⟩
  rw [poly_derivative_eq, hp, hv, Go.ok_bind, Go.ok_bind, hr.1, Go.ok_bind]
  refine ⟨_, rfl, ?_⟩
  split
  · exact Or.inl ⟨_, rfl⟩
  · exact Or.inr ⟨_, rfl⟩

theorem poly_derivative_bad {v : Var R} {p : Poly R} (h : p.check ≠ .ok () ∨ v.check ≠ .ok ()) :
    ∃ e, p.derivative v = .error e := by
  rw [poly_derivative_eq]
  cases hp : p.check with
  | error e => exact ⟨_, rfl⟩
  | ok u =>
    cases hv : v.check with
    | error e => exact ⟨_, rfl⟩
    | ok u' => exact absurd h (by simp [hp, hv])

/-- What a polynomial stands for after the call. -/
theorem poly_afterCall_eq (v : Var R) (p : Poly R) : p.afterCall v =
    (match p.check with
      | .ok _ => (match v.check with
        | .ok _ => ⟨afterAll (stepVal v) (Mono.afterCall v) p.monos⟩
        | .error _ => p)
      | .error _ => p) := by
  unfold Poly.afterCall
  cases hp : p.check with
  | error e =>
    obtain ⟨e', he⟩ := poly_derivative_bad (v := v) (p := p) (Or.inl (by rw [hp]; simp))
    rw [he]
  | ok u =>
    cases hv : v.check with
    | error e =>
      obtain ⟨e', he⟩ := poly_derivative_bad (v := v) (p := p) (Or.inr (by rw [hv]; simp))
      rw [he]
    | ok u' =>
      obtain ⟨x, hx, -⟩ := poly_derivative_ok hv hp
      rw [hx]
      simp only
      rw [afterAll_ok fun m hm => stepVal_ok hv (poly_check_mem hp hm)]
      congr 1
      exact List.map_inj_left.mpr fun m hm => (mono_afterCall_ok hv (poly_check_mem hp hm)).symm

theorem poly_spec (v : Var R) (p : HPoly R) (h : Heap R) (ha : LP.Valid h.exps p)
    (hnd : (LP.addrs p).Nodup) :
    Spec LP LS (pPolyDerivative v) (·.derivative v) (Poly.afterCall v) p h := by
  have ha' : LM.list.Valid h.exps p.monos := by
    intro x hx
    rw [← lp_addrs] at hx
    exact ha x hx
  have hnd' : (LM.list.addrs p.monos).Nodup := by rw [← lp_addrs]; exact hnd
  have h1 : Spec LM.list LM.list.list (PM.traverse (pDerivStep v)) (fun l => l.mapM (stepVal v))
      (afterAll (stepVal v) (Mono.afterCall v)) p.monos h :=
    Spec.traverse p.monos ha' hnd' fun m _ h' hm _ => step_spec v m h' hm
  have h2 := spec_of_monos (Spec.bind h1 ha' fun b _ h' hb => contPoly_safe b h' hb)
  have h3 := Spec.read (chk := fun _ => v.check) (chk' := fun _ => v.check) rfl h2
  have h4 := Spec.read (chk := fun h => (p.load h.exps).check) (chk' := fun q => q.check) rfl h3
  exact h4.congr rfl (poly_derivative_eq _ _) (poly_afterCall_eq _ _)

theorem poly_safe (v : Var R) (p : HPoly R) (h : Heap R) (ha : LP.Valid h.exps p)
    (hs : (LP.load h.exps p).afterCall v = LP.load h.exps p) :
    Safe LP LS (pPolyDerivative v) (·.derivative v) p h := by
  have ha' : LM.list.Valid h.exps p.monos := by
    intro x hx
    rw [← lp_addrs] at hx
    exact ha x hx
  refine Safe.congr (Safe.read (chk := fun h => (p.load h.exps).check) (chk' := fun q => q.check) rfl
    fun hp => Safe.read (chk := fun _ => v.check) (chk' := fun _ => v.check) rfl fun hv =>
      safe_of_monos (Safe.bind (Safe.traverse (P := fun m => m.afterCall v = m) p.monos ha' ?_
        fun m _ h' hm hP => step_safe v m h' hm hP) fun b _ h' hb => contPoly_safe b h' hb)) rfl
    (poly_derivative_eq _ _)
  intro m hm
  rw [poly_afterCall_eq, hp, hv] at hs
  simp only at hs
  rw [afterAll_ok fun m hm => stepVal_ok hv (poly_check_mem hp hm)] at hs
  have h5 := congrArg Poly.monos hs
  simp only at h5
  have h6 : (LP.load h.exps p).monos.map (Mono.afterCall v) = (LP.load h.exps p).monos.map id := by
    rw [h5, List.map_id]
  exact List.map_inj_left.mp h6 _ (List.mem_map_of_mem hm)

/-! ## The type assertion to `Polynomial` -/

/-- The exponents change only if the derivative is a monomial. -/
theorem mono_after_k {m : Mono R} {v : Var R} {c : R} (h : m.derivative v = .ok (.k c)) :
    m.afterDerivative v = m := by
  unfold Mono.derivative at h
  unfold Mono.afterDerivative
  cases hm : m.check with
  | error e => rw [hm] at h; cases h
  | ok u =>
    cases hv : v.check with
    | error e => rw [hm, hv] at h; cases h
    | ok u' =>
      rw [hm, hv] at h
      simp only [Go.ok_bind] at h
      cases hf : findVar v m.vars with
      | none => rfl
      | some i =>
        rw [hf] at h
        simp only at h ⊢
        cases he : m.exps[i]? with
        | none => rw [he] at h; cases h
        | some x =>
          rw [he] at h
          simp only at h
          by_cases h1 : x = 1
          · rw [h1, if_pos rfl]
          · rw [if_neg (fun h2 => h1 h2.1), if_neg h1] at h
            cases h

theorem stepVal_nil {m : Mono R} {v : Var R} (h : stepVal v m = .ok []) : m.afterDerivative v = m := by
  unfold stepVal at h
  split at h
  · rename_i hc
    exact Mono.afterDerivative_const (by simpa using hc)
  · cases hd : m.derivative v with
    | error e => rw [hd] at h; cases h
    | ok x =>
      rw [hd, Go.ok_bind] at h
      cases x with
      | k c => exact mono_after_k hd
      | var w => cases h
      | mono d => cases h
      | poly p => cases h

theorem mapM_mem_ok {α β : Type} {f : α → Go β} {l : List α} : ∀ {r : List β}, l.mapM f = .ok r →
    ∀ a ∈ l, ∃ b ∈ r, f a = .ok b := by
  induction l with
  | nil => intro r _ a ha; cases ha
  | cons x l ih =>
    intro r h a ha
    rw [List.mapM_cons] at h
    cases hx : f x with
    | error e => rw [hx] at h; cases h
    | ok b =>
      rw [hx, Go.ok_bind] at h
      cases hl : l.mapM f with
      | error e => rw [hl] at h; cases h
      | ok bs =>
        rw [hl] at h
        cases h
        rcases List.mem_cons.mp ha with rfl | ha
        · exact ⟨b, by simp, hx⟩
        · obtain ⟨b', hb, hf⟩ := ih hl a ha
          exact ⟨b', List.mem_cons_of_mem _ hb, hf⟩

/-- A polynomial whose derivative is a constant is not changed by the call. -/
theorem poly_after_k {p : Poly R} {v : Var R} {c : R} (h : p.derivative v = .ok (.k c)) :
    p.afterCall v = p := by
  unfold Poly.afterCall
  rw [h]
  rw [poly_derivative_eq] at h
  cases hp : p.check with
  | error e => rw [hp] at h; cases h
  | ok u =>
    cases hv : v.check with
    | error e => rw [hp, hv] at h; cases h
    | ok u' =>
      rw [hp, hv, Go.ok_bind, Go.ok_bind] at h
      cases hr : p.monos.mapM (stepVal v) with
      | error e => rw [hr] at h; cases h
      | ok r =>
        rw [hr, Go.ok_bind] at h
        have hnil : r.flatten = [] := by
          by_contra hne
          rw [if_neg (by simpa using hne)] at h
          cases h
        have : p.monos.map (·.afterDerivative v) = p.monos := by
          conv_rhs => rw [← List.map_id p.monos]
          refine List.map_inj_left.mpr fun m hm => ?_
          obtain ⟨b, hb, hs⟩ := mapM_mem_ok hr m hm
          rw [List.flatten_eq_nil_iff] at hnil
          rw [hnil b hb] at hs
          exact stepVal_nil hs
        simp only [this]

theorem contAssert_safe (e : HScalar R) (h : Heap R) (he : LS.Valid h.exps e) :
    Safe LS LP (fun (x : HScalar R) => (match x with
        | .poly q => pure q
        | _ => PM.panic .typeAssert : PM (Heap R) (HPoly R)))
      (fun x => match x with | .poly q => .ok q | _ => .error .typeAssert) e h := by
  cases e with
  | k c => exact Safe.panic.congr rfl rfl
  | var w => exact Safe.panic.congr rfl rfl
  | mono m => exact Safe.panic.congr rfl rfl
  | poly p =>
    exact (Safe.ret (L := LS) (M := LP) (f := fun _ => p) (g := fun _ => p.load h.exps) rfl
      (fun x hx => hx) he).congr rfl rfl

theorem derivPoly_eq (p : Poly R) (v : Var R) : p.derivPoly v = (p.derivative v >>= fun x => match x with
    | .poly q => .ok q
    | _ => .error .typeAssert) := by
  unfold Poly.derivPoly
  cases p.derivative v with
  | error e => rfl
  | ok x => cases x <;> rfl

theorem derivPoly_spec (v : Var R) (p : HPoly R) (h : Heap R) (ha : LP.Valid h.exps p)
    (hnd : (LP.addrs p).Nodup) :
    Spec LP LP (pDerivPoly v) (·.derivPoly v) (Poly.afterCall v) p h :=
  (Spec.bind (poly_spec v p h ha hnd) ha fun b _ h' hb => contAssert_safe b h' hb).congr rfl
    (derivPoly_eq _ _) rfl

theorem derivPoly_safe (v : Var R) (p : HPoly R) (h : Heap R) (ha : LP.Valid h.exps p)
    (hs : (LP.load h.exps p).afterCall v = LP.load h.exps p) :
    Safe LP LP (pDerivPoly v) (·.derivPoly v) p h :=
  (Safe.bind (poly_safe v p h ha hs) fun b _ h' hb => contAssert_safe b h' hb).congr rfl
    (derivPoly_eq _ _)

/-- A polynomial that fails the assertion is not changed. -/
theorem derivPoly_error {p : Poly R} {v : Var R} {e : Err} (h : p.derivPoly v = .error e) :
    p.afterCall v = p := by
  rw [derivPoly_eq] at h
  cases hd : p.derivative v with
  | error e => unfold Poly.afterCall; rw [hd]
  | ok x =>
    cases x with
    | k c => exact poly_after_k hd
    | poly q => rw [hd] at h; cases h
    | var w =>
      by_cases hp : p.check = .ok () ∧ v.check = .ok ()
      · obtain ⟨y, hy, ⟨c, rfl⟩ | ⟨q, rfl⟩⟩ := poly_derivative_ok hp.2 hp.1 <;> rw [hy] at hd <;> cases hd
      · obtain ⟨e', he⟩ := poly_derivative_bad (v := v) (p := p) (by
          by_contra hn
          push Not at hn
          exact hp hn)
        rw [he] at hd
        cases hd
    | mono m =>
      by_cases hp : p.check = .ok () ∧ v.check = .ok ()
      · obtain ⟨y, hy, ⟨c, rfl⟩ | ⟨q, rfl⟩⟩ := poly_derivative_ok hp.2 hp.1 <;> rw [hy] at hd <;> cases hd
      · obtain ⟨e', he⟩ := poly_derivative_bad (v := v) (p := p) (by
          by_contra hn
          push Not at hn
          exact hp hn)
        rw [he] at hd
        cases hd

/-! ## Scalars -/

theorem Spec.wrap {α A α' A' β B : Type} {L : Loader α A} {L' : Loader α' A'} {M : Loader β B}
    {f : α → PM (Heap R) β} {f' : α' → PM (Heap R) β} {g : A → Go B} {g' : A' → Go B} {post : A → A}
    {post' : A' → A'} {a : α} {h : Heap R} (mk : α → α') (mkv : A → A')
    (h1 : Spec L M f g post a h) (ha : L'.addrs (mk a) = L.addrs a)
    (hl : ∀ h, L'.load h (mk a) = mkv (L.load h a)) (hf : f' (mk a) h = f a h)
    (hg : g' (mkv (L.load h.exps a)) = g (L.load h.exps a))
    (hp : post' (mkv (L.load h.exps a)) = mkv (post (L.load h.exps a))) :
    Spec L' M f' g' post' (mk a) h := by
  refine ⟨?_, ?_, ?_, ?_, ?_, ?_⟩
  · rw [hf, hl, hg]; exact h1.value
  · rw [hf]; exact h1.len
  · rw [hf]; exact h1.pvs
  · rw [hf, ha]; exact h1.frame
  · rw [hf, hl, hl, hp, h1.self]
  · rw [hf, ha]; exact h1.addrs

theorem Safe.wrap {α A α' A' β B : Type} {L : Loader α A} {L' : Loader α' A'} {M : Loader β B}
    {f : α → PM (Heap R) β} {f' : α' → PM (Heap R) β} {g : A → Go B} {g' : A' → Go B}
    {a : α} {h : Heap R} (mk : α → α') (mkv : A → A')
    (h1 : Safe L M f g a h) (ha : L'.addrs (mk a) = L.addrs a)
    (hl : ∀ h, L'.load h (mk a) = mkv (L.load h a)) (hf : f' (mk a) h = f a h)
    (hg : g' (mkv (L.load h.exps a)) = g (L.load h.exps a)) :
    Safe L' M f' g' (mk a) h := by
  refine ⟨?_, ?_, ?_, ?_⟩
  · rw [hf, hl, hg]; exact h1.value
  · rw [hf]; exact h1.ext
  · rw [hf]; exact h1.pvs
  · rw [hf, ha]; exact h1.addrs

/-- A call that reads values without exponents. -/
theorem Safe.pureRead {α A β B : Type} {L : Loader α A} {M : Loader β B} {r : Go β} {a : α} {h : Heap R}
    {g : A → Go B} (hg : r.map (M.load h.exps) = g (L.load h.exps a)) (hm : ∀ b, r = .ok b → M.addrs b = []) :
    Safe L M (fun _ => PM.read (fun _ => r)) g a h :=
  ⟨hg, List.prefix_rfl, rfl, fun b hb x hx => by rw [hm b hb] at hx; cases hx⟩

theorem scalar_afterCall_mono (v : Var R) (m : Mono R) :
    (Scalar.mono m).afterCall v = .mono (m.afterCall v) := by
  show (match m.derivative v with | .ok _ => _ | .error _ => _) = Scalar.mono (match m.derivative v with
    | .ok _ => m.afterDerivative v
    | .error _ => m)
  cases m.derivative v <;> rfl

theorem scalar_afterCall_poly (v : Var R) (p : Poly R) :
    (Scalar.poly p).afterCall v = .poly (p.afterCall v) := by
  show (match p.derivative v with | .ok _ => _ | .error _ => _) = Scalar.poly (match p.derivative v with
    | .ok _ => ⟨p.monos.map (·.afterDerivative v)⟩
    | .error _ => p)
  cases p.derivative v <;> rfl

theorem scalar_afterCall_k (v : Var R) (c : R) : (Scalar.k c).afterCall v = .k c := rfl

theorem scalar_afterCall_var (v w : Var R) : (Scalar.var w).afterCall v = .var w := by
  unfold Scalar.afterCall
  cases (Scalar.var w).derivative v <;> rfl

theorem kvar_safe (v : Var R) (e : HScalar R) (h : Heap R) (he : (∃ c, e = .k c) ∨ ∃ w, e = .var w) :
    Safe LS LS (pScalarDerivative v) (·.derivative v) e h := by
  rcases he with ⟨c, rfl⟩ | ⟨w, rfl⟩
  · exact (Safe.pureRead (L := LS) (M := LS) (r := .ok (.k GoNum.zero)) (g := fun _ => .ok (.k GoNum.zero))
      rfl fun b hb => by cases hb; rfl).congr rfl rfl
  · refine (Safe.pureRead (L := LS) (M := LS) (r := do
        w.check
        v.check
        if w.id = v.id then pure (.k GoNum.one) else pure (.k GoNum.zero))
      (g := fun _ => (Scalar.var w).derivative v) ?_ ?_).congr ?_ rfl
    · simp only [Scalar.derivative]
      cases w.check with
      | error e => rfl
      | ok u =>
        cases v.check with
        | error e => rfl
        | ok u' =>
          simp only [Go.ok_bind]
          split <;> rfl
    · cases w.check with
      | error e => intro b hb; cases hb
      | ok u =>
        cases v.check with
        | error e => intro b hb; cases hb
        | ok u' =>
          simp only [Go.ok_bind]
          split <;> (intro b hb; cases hb; rfl)
    · unfold pScalarDerivative
      simp only
      cases hw : w.check with
      | error e => exact PM.bind_error (x := PM.read fun _ => .error e) rfl
      | ok u =>
        refine (PM.bind_ok (x := PM.read fun _ => .ok u) (a := u) rfl).trans ?_
        cases hv : v.check with
        | error e => exact PM.bind_error (x := PM.read fun _ => .error e) rfl
        | ok u' =>
          refine (PM.bind_ok (x := PM.read fun _ => .ok u') (a := u') rfl).trans ?_
          simp only [Go.ok_bind]
          split <;> rfl

theorem scalar_spec (v : Var R) (e : HScalar R) (h : Heap R) (ha : LS.Valid h.exps e)
    (hnd : (LS.addrs e).Nodup) :
    Spec LS LS (pScalarDerivative v) (·.derivative v) (Scalar.afterCall v) e h := by
  cases e with
  | k c => exact ((kvar_safe v (.k c) h (Or.inl ⟨c, rfl⟩)).spec ha).congr rfl rfl rfl
  | var w =>
    exact ((kvar_safe v (.var w) h (Or.inr ⟨w, rfl⟩)).spec ha).congr rfl rfl (scalar_afterCall_var v w)
  | mono m => exact (mono_spec v m h ha).wrap (L' := LS) HScalar.mono Scalar.mono rfl (fun _ => rfl) rfl rfl (scalar_afterCall_mono _ _)
  | poly p => exact (poly_spec v p h ha hnd).wrap (L' := LS) HScalar.poly Scalar.poly rfl (fun _ => rfl) rfl rfl (scalar_afterCall_poly _ _)

theorem scalar_safe (v : Var R) (e : HScalar R) (h : Heap R) (ha : LS.Valid h.exps e)
    (hs : (LS.load h.exps e).afterCall v = LS.load h.exps e) :
    Safe LS LS (pScalarDerivative v) (·.derivative v) e h := by
  cases e with
  | k c => exact kvar_safe v (.k c) h (Or.inl ⟨c, rfl⟩)
  | var w => exact kvar_safe v (.var w) h (Or.inr ⟨w, rfl⟩)
  | mono m =>
    refine (mono_safe v m h ha ?_).wrap (L' := LS) HScalar.mono Scalar.mono rfl (fun _ => rfl) rfl rfl
    have h1 : (Scalar.mono (m.load h.exps)).afterCall v = .mono (m.load h.exps) := hs
    rw [scalar_afterCall_mono] at h1
    exact Scalar.mono.inj h1
  | poly p =>
    refine (poly_safe v p h ha ?_).wrap (L' := LS) HScalar.poly Scalar.poly rfl (fun _ => rfl) rfl rfl
    have h1 : (Scalar.poly (p.load h.exps)).afterCall v = .poly (p.load h.exps) := hs
    rw [scalar_afterCall_poly] at h1
    exact Scalar.poly.inj h1

end Verif
