import Verif.Lemmas.HeapCalls
import Verif.WitnessArray

/-!
# C10 for all kinds of expressions and with recovered panics

For every memory and every receiver without shared slices, well formed or not: what a call of
`DerivativeWrt` returns, what it writes, and what the receiver stands for afterwards, also when the call
panics and the caller recovers.  Programs whose calls do not change their receivers compute the true
derivatives with any sharing.
-/

set_option linter.unusedSectionVars false

namespace Verif

variable {R : Type} [GoNum R]

/-! ## What a call leaves behind, on values -/

/-- The entries of a `PolynomialMatrix` row after the loop: the entries up to the first one whose
derivative is not a `Polynomial` are changed. -/
def polyRowAfter (v : Var R) (l : List (Poly R)) : List (Poly R) :=
  afterAll (·.derivPoly v) (Poly.afterCall v) l

/-- The entries of a `PolynomialVector` after the loop: the entries before the first one whose
derivative is not a `Polynomial` are replaced. -/
def polyVecAfter (v : Var R) : List (Poly R) → List (Poly R)
  | [] => []
  | p :: ps => match p.derivPoly v with
    | .ok q => q :: polyVecAfter v ps
    | .error _ => p :: ps

/-- What the receiver stands for after `DerivativeWrt`, also if the call panics. -/
def Expr.afterCall (v : Var R) : Expr R → Expr R
  | .s e => .s (e.afterCall v)
  | .v (.m l) => match Vec.derivative (.m l) v with
    | .ok _ => .v (.m (l.map fun m => (m.afterDerivative v).afterDerivative v))
    | .error _ => .v (.m l)
  | .v (.p l) => .v (.p (polyVecAfter v l))
  | .m (.m rows) => match Mat.derivative (.m rows) v with
    | .ok _ => .m (.m (rows.map (·.map (·.afterDerivative v))))
    | .error _ => .m (.m rows)
  | .m (.p rows) => match Mat.check (.p rows), v.check with
    | .ok _, .ok _ => .m (.p (afterAll (fun row => row.mapM (·.derivPoly v)) (polyRowAfter v) rows))
    | _, _ => .m (.p rows)
  | e => e

/-! ## Objects -/

/-- The exponent slices of an object. -/
def HObj.addrs (pvs : List (List (HPoly R))) : HObj R → List ℕ
  | .s e => e.addrs
  | .mv l => LM.list.addrs l
  | .pv a => LP.list.addrs (pvs.getD a [])
  | .mm rows => LM.list.list.addrs rows
  | .pm rows => LP.list.list.addrs rows
  | _ => []

/-- Not a `PolynomialVector`. -/
def HObj.NotPV : HObj R → Prop
  | .pv _ => False
  | _ => True

def LO (pvs : List (List (HPoly R))) : Loader (HObj R) (Expr R) where
  addrs := HObj.addrs pvs
  load h o := o.load ⟨h, pvs⟩
  congr := by
    intro h h' o hx
    cases o with
    | s e => exact congrArg Expr.s (LS.congr hx)
    | kv l => rfl
    | vv l => rfl
    | mv l => exact congrArg (fun x => Expr.v (.m x)) (LM.list.congr hx)
    | pv a => exact congrArg (fun x => Expr.v (.p x)) (LP.list.congr hx)
    | km rows => rfl
    | vm rows => rfl
    | mm rows => exact congrArg (fun x => Expr.m (.m x)) (LM.list.list.congr hx)
    | pm rows => exact congrArg (fun x => Expr.m (.p x)) (LP.list.list.congr hx)

/-! ## `MonomialVector` -/

def monoVecStepVal (v : Var R) (m : Mono R) : Go (Bool × Scalar R) :=
  m.derivative v >>= fun d1 => (m.afterDerivative v).derivative v >>= fun d2 => .ok (d1.isMono, d2)

theorem hIsMono {h : ExpHeap} (e : HScalar R) : e.isMono = (e.load h).isMono := by
  cases e <;> rfl

theorem forall₂_right {α β : Type} {Q : β → Prop} {l : List α} {r : List β}
    (h : List.Forall₂ (fun _ b => Q b) l r) : ∀ b ∈ r, Q b := by
  induction h with
  | nil => intro b hb; cases hb
  | cons h1 _ ih => exact List.forall_mem_cons.mpr ⟨h1, ih⟩

theorem monoVecStep_spec (v : Var R) (m : HMono R) (h : Heap R) (ha : LM.Valid h.exps m) :
    Spec LM LS.flag (pMonoVecStep v) (monoVecStepVal v) (Mono.afterCall2 v) m h := by
  have h1 := mono_spec v m h ha
  have hS : pMonoVecStep v m = pMonoDerivative v m >>= fun d1 => pMonoDerivative v m >>= fun d2 =>
    pure (d1.isMono, d2) := rfl
  cases ho : (pMonoDerivative v m h).1 with
  | error e =>
    have hd : (LM.load h.exps m).derivative v = .error e := by rw [← h1.value, ho, Go.map_error]
    have hrun : pMonoVecStep v m h = (.error e, (pMonoDerivative v m h).2) := by rw [hS, PM.bind_error ho]
    refine ⟨?_, ?_, ?_, ?_, ?_, ?_⟩
    · rw [hrun]
      unfold monoVecStepVal
      rw [hd]
      rfl
    · rw [hrun]; exact h1.len
    · rw [hrun]; exact h1.pvs
    · rw [hrun]; exact h1.frame
    · rw [hrun]
      show LM.load (pMonoDerivative v m h).2.exps m = _
      rw [h1.self]
      unfold Mono.afterCall Mono.afterCall2
      rw [hd]
    · rw [hrun]
      intro b hb
      cases hb
  | ok d1 =>
    have hd : (LM.load h.exps m).derivative v = .ok (LS.load (pMonoDerivative v m h).2.exps d1) := by
      rw [← h1.value, ho, Go.map_ok]
    have hself : LM.load (pMonoDerivative v m h).2.exps m = (LM.load h.exps m).afterDerivative v := by
      rw [h1.self]
      unfold Mono.afterCall
      rw [hd]
    have hck : (LM.load h.exps m).check = .ok () ∧ v.check = .ok () := by
      rcases mono_derivative_cases (LM.load h.exps m) v with ⟨a, b, -⟩ | ⟨e, he, -⟩
      · exact ⟨a, b⟩
      · rw [hd] at he; cases he
    have h2 := mono_spec v m (pMonoDerivative v m h).2 fun x hx => (ha x hx).trans_le h1.len
    have hlen1 := h1.len
    have hlen2 := h2.len
    have hrun1 : pMonoVecStep v m h = (pMonoDerivative v m >>= fun d2 =>
        pure (d1.isMono, d2)) (pMonoDerivative v m h).2 := by
      rw [hS, PM.bind_ok ho]
    cases ho2 : (pMonoDerivative v m (pMonoDerivative v m h).2).1 with
    | error e =>
      exfalso
      have h3 := h2.value
      rw [ho2, Go.map_error, hself] at h3
      rcases mono_derivative_cases ((LM.load h.exps m).afterDerivative v) v with ⟨-, -, x, hx, -⟩ | ⟨e', -, he'⟩
      · rw [hx] at h3; cases h3
      · have := he' ((mono_after_check _ _).trans hck.1)
        rw [hck.2] at this
        cases this
    | ok d2 =>
      have hd2 : ((LM.load h.exps m).afterDerivative v).derivative v =
          .ok (LS.load (pMonoDerivative v m (pMonoDerivative v m h).2).2.exps d2) := by
        rw [← hself, ← h2.value, ho2, Go.map_ok]
      have hrun : pMonoVecStep v m h = (.ok (d1.isMono, d2),
          (pMonoDerivative v m (pMonoDerivative v m h).2).2) := by
        rw [hrun1, PM.bind_ok ho2]
        rfl
      refine ⟨?_, ?_, ?_, ?_, ?_, ?_⟩
      · rw [hrun]
        unfold monoVecStepVal
        rw [hd, Go.ok_bind, hd2, Go.ok_bind, Go.map_ok]
        exact congrArg (fun b => Except.ok (b, _)) (hIsMono d1)
      · rw [hrun]; exact hlen1.trans hlen2
      · rw [hrun]; exact h2.pvs.trans h1.pvs
      · rw [hrun]
        intro x hx hx2
        rw [h2.frame x (hx.trans_le hlen1) hx2, h1.frame x hx hx2]
      · rw [hrun]
        show LM.load (pMonoDerivative v m (pMonoDerivative v m h).2).2.exps m = _
        rw [h2.self, hself]
        unfold Mono.afterCall Mono.afterCall2
        rw [hd, hd2]
      · rw [hrun]
        intro b hb x hx
        cases hb
        have h3 := h2.addrs d2 ho2 x hx
        exact ⟨h3.1, h3.2.imp id fun h4 => hlen1.trans h4⟩

theorem mono_afterCall2_same {v : Var R} {m : Mono R} (h : m.afterCall v = m) : m.afterCall2 v = m := by
  unfold Mono.afterCall at h
  unfold Mono.afterCall2
  cases hd : m.derivative v with
  | error e => rfl
  | ok x =>
    rw [hd] at h
    simp only at h ⊢
    rw [h, h]

theorem monoVecStep_safe (v : Var R) (m : HMono R) (h : Heap R) (ha : LM.Valid h.exps m)
    (hs : (LM.load h.exps m).afterCall v = LM.load h.exps m) :
    Safe LM LS.flag (pMonoVecStep v) (monoVecStepVal v) m h := by
  have h1 := monoVecStep_spec v m h ha
  refine ⟨h1.value, prefix_of_getD h1.len fun x hx => ?_, h1.pvs, h1.addrs⟩
  by_cases hxm : x = m.addr
  · subst hxm
    have h2 := h1.self
    rw [mono_afterCall2_same hs] at h2
    exact congrArg Mono.exps h2
  · exact h1.frame x hx fun h3 => hxm (by simpa [LM] using h3)

def monoEntryVal (d : Bool × Scalar R) : Go (Mono R) :=
  match d.2 with
  | .mono x => .ok x
  | .k c => .ok (kToMono c)
  | _ => .error .other

def constEntryVal (d : Bool × Scalar R) : Go R :=
  match d.2 with
  | .k c => .ok c
  | _ => .error .typeAssert

theorem monoEntry_safe (d : Bool × HScalar R) (h : Heap R) (hd : LS.flag.Valid h.exps d) :
    Safe LS.flag LM pMonoEntry monoEntryVal d h := by
  obtain ⟨b, e⟩ := d
  cases e with
  | k c =>
    exact (alloc_safe (L := LS.flag) (M := LM) (l := []) (fun i => (⟨c, i, []⟩ : HMono R)) (kToMono c)
      new_mono_load (fun x hx => by simpa [LM] using hx)).congr rfl rfl
  | mono m =>
    exact (Safe.ret (L := LS.flag) (M := LM) (f := fun _ => m) (g := fun _ => m.load h.exps) rfl
      (fun x hx => by simpa [Loader.flag, LM, LS, HScalar.addrs] using hx) hd).congr rfl rfl
  | var w => exact Safe.panic.congr rfl rfl
  | poly p => exact Safe.panic.congr rfl rfl

theorem constEntry_safe (d : Bool × HScalar R) (h : Heap R) (hd : LS.flag.Valid h.exps d) :
    Safe LS.flag (Loader.const R) pConstEntry constEntryVal d h := by
  obtain ⟨b, e⟩ := d
  cases e with
  | k c =>
    exact (Safe.ret (L := LS.flag) (M := Loader.const R) (f := fun _ => c) (g := fun _ => c) rfl
      (fun x hx => by cases hx) hd).congr rfl rfl
  | mono m => exact Safe.panic.congr rfl rfl
  | var w => exact Safe.panic.congr rfl rfl
  | poly p => exact Safe.panic.congr rfl rfl

/-- The second half of `MonomialVector.DerivativeWrt`. -/
def monoVecOut (ds : List (Bool × Scalar R)) : Go (Expr R) :=
  if ds.any (·.1) then ds.mapM monoEntryVal >>= fun ms => .ok (.v (.m ms))
  else ds.mapM constEntryVal >>= fun ks => .ok (.v (.k ks))

theorem monoVecOut_safe (pvs : List (List (HPoly R))) (ds : List (Bool × HScalar R)) (h : Heap R)
    (hd : LS.flag.list.Valid h.exps ds) :
    Safe LS.flag.list (LO pvs) (fun ds => if ds.any (·.1) then (do
        let ms ← PM.traverse pMonoEntry ds
        pure (HObj.mv ms) : PM (Heap R) (HObj R))
      else (do
        let ks ← PM.traverse pConstEntry ds
        pure (HObj.kv ks))) monoVecOut ds h := by
  have hany : (LS.flag.list.load h.exps ds).any (·.1) = ds.any (·.1) := by
    simp only [Loader.list, List.any_map]
    rfl
  by_cases ha : ds.any (·.1) = true
  · refine (Safe.bind (Safe.traverse (P := fun _ => True) ds hd (fun _ _ => trivial) fun d _ h' hd' _ =>
      monoEntry_safe d h' hd') (N := LO pvs) (f' := fun ms => pure (HObj.mv ms))
      (g' := fun ms => .ok (.v (.m ms))) fun b _ h' hb => Safe.ret rfl (fun x hx => hx) hb).congr ?_ ?_
    · rw [if_pos ha]
    · unfold monoVecOut
      rw [hany, if_pos ha]
  · refine (Safe.bind (Safe.traverse (P := fun _ => True) ds hd (fun _ _ => trivial) fun d _ h' hd' _ =>
      constEntry_safe d h' hd') (N := LO pvs) (f' := fun ms => pure (HObj.kv ms))
      (g' := fun ms => .ok (.v (.k ms))) fun b _ h' hb => Safe.ret ?_ (fun x hx => by cases hx) hb).congr ?_ ?_
    · show Expr.v (.k b) = .v (.k (b.map fun a => a))
      rw [List.map_id']
    · rw [if_neg ha]
    · unfold monoVecOut
      rw [hany, if_neg ha]

theorem expr_mv_eq (v : Var R) (l : List (Mono R)) : Expr.derivative (.v (.m l)) v =
    (Vec.check (.m l) >>= fun _ => l.mapM (monoVecStepVal v) >>= monoVecOut) := by
  show ((Vec.derivative (.m l) v) >>= fun x => pure (Expr.v x)) = _
  unfold Vec.derivative
  simp only
  cases Vec.check (.m l) with
  | error e => rfl
  | ok u =>
    simp only [Go.ok_bind]
    change (l.mapM (monoVecStepVal v) >>= _) >>= _ = _
    cases l.mapM (monoVecStepVal v) with
    | error e => rfl
    | ok ds =>
      simp only [Go.ok_bind]
      unfold monoVecOut
      by_cases ha : ds.any (·.1) = true
      · rw [if_pos ha, if_pos ha]
        change (ds.mapM monoEntryVal >>= _) >>= _ = _
        cases ds.mapM monoEntryVal <;> rfl
      · rw [if_neg ha, if_neg ha]
        change (ds.mapM constEntryVal >>= _) >>= _ = _
        cases ds.mapM constEntryVal <;> rfl

theorem monoVecStep_cases {v : Var R} (hv : v.check = .ok ()) {m : Mono R} (hm : m.check = .ok ()) :
    ∃ b d, monoVecStepVal v m = .ok (b, d) ∧ ((∃ c, d = .k c) ∨ ∃ x, d = .mono x) ∧
      (b = false → ∃ c, d = .k c) := by
  rcases mono_derivative_cases m v with ⟨-, -, x, hx, hk⟩ | ⟨e, -, he⟩
  · rcases mono_derivative_cases (m.afterDerivative v) v with ⟨-, -, y, hy, hk2⟩ | ⟨e, -, he⟩
    · refine ⟨x.isMono, y, ?_, hk2, fun hb => ?_⟩
      · unfold monoVecStepVal
        rw [hx, Go.ok_bind, hy, Go.ok_bind]
      · rcases hk with ⟨c, rfl⟩ | ⟨d, rfl⟩
        · rw [mono_after_k hx, hx] at hy
          cases hy
          exact ⟨c, rfl⟩
        · cases hb
    · have := he ((mono_after_check _ _).trans hm)
      rw [hv] at this
      cases this
  · have := he hm
    rw [hv] at this
    cases this

theorem vec_check_mem {l : List (Mono R)} (h : Vec.check (.m l) = .ok ()) : l ≠ [] ∧ ∀ m ∈ l, m.check = .ok () := by
  unfold Vec.check at h
  simp only at h
  split at h
  · cases h
  · exact ⟨by assumption, forM_monos h⟩

/-- After the check `MonomialVector.DerivativeWrt` panics only if the variable is malformed. -/
theorem monoVec_ok {v : Var R} (hv : v.check = .ok ()) {l : List (Mono R)} (hl : Vec.check (.m l) = .ok ()) :
    ∃ x, Vec.derivative (.m l) v = .ok x := by
  obtain ⟨-, hm⟩ := vec_check_mem hl
  obtain ⟨ds, hds, hQ⟩ := Go.mapM_ok (monoVecStepVal v)
    (fun _ d => ((∃ c, d.2 = .k c) ∨ ∃ x, d.2 = .mono x) ∧ (d.1 = false → ∃ c, d.2 = .k c)) l fun m hml => by
      obtain ⟨b, d, h1, h2, h3⟩ := monoVecStep_cases hv (hm m hml)
      exact ⟨(b, d), h1, h2, h3⟩
  have hall : ∀ d ∈ ds, ((∃ c, d.2 = .k c) ∨ ∃ x, d.2 = .mono x) ∧ (d.1 = false → ∃ c, d.2 = .k c) :=
    forall₂_right hQ
  have hout : ∃ y, monoVecOut ds = .ok y := by
    unfold monoVecOut
    by_cases ha : ds.any (·.1) = true
    · rw [if_pos ha]
      obtain ⟨r, hr, -⟩ := Go.mapM_ok monoEntryVal (fun _ _ => True) ds fun d hd => by
        obtain ⟨⟨c, h1⟩ | ⟨x, h1⟩, -⟩ := hall d hd
        · exact ⟨_, by unfold monoEntryVal; rw [h1], trivial⟩
        · exact ⟨_, by unfold monoEntryVal; rw [h1], trivial⟩
      rw [hr]
      exact ⟨_, rfl⟩
    · rw [if_neg ha]
      obtain ⟨r, hr, -⟩ := Go.mapM_ok constEntryVal (fun _ _ => True) ds fun d hd => by
        have hb : d.1 = false := by
          by_contra hb
          exact ha (List.any_eq_true.mpr ⟨d, hd, by simpa using hb⟩)
        obtain ⟨c, h1⟩ := (hall d hd).2 hb
        exact ⟨_, by unfold constEntryVal; rw [h1], trivial⟩
      rw [hr]
      exact ⟨_, rfl⟩
  obtain ⟨y, hy⟩ := hout
  have h1 : Expr.derivative (.v (.m l)) v = .ok y := by
    rw [expr_mv_eq, hl, Go.ok_bind, hds, Go.ok_bind, hy]
  cases hd : Vec.derivative (.m l) v with
  | ok x => exact ⟨x, rfl⟩
  | error e =>
    have h2 : Expr.derivative (.v (.m l)) v = .error e := by
      show ((Vec.derivative (.m l) v) >>= fun x => pure (Expr.v x)) = _
      rw [hd]
      rfl
    rw [h1] at h2
    cases h2

theorem monoVec_bad {v : Var R} {l : List (Mono R)} (h : Vec.check (.m l) ≠ .ok () ∨ v.check ≠ .ok ()) :
    ∃ e, Vec.derivative (.m l) v = .error e := by
  cases hd : Vec.derivative (.m l) v with
  | error e => exact ⟨e, rfl⟩
  | ok x =>
    exfalso
    have h1 : Expr.derivative (.v (.m l)) v = .ok (.v x) := by
      show ((Vec.derivative (.m l) v) >>= fun x => pure (Expr.v x)) = _
      rw [hd]
      rfl
    rw [expr_mv_eq] at h1
    cases hc : Vec.check (.m l) with
    | error e => rw [hc] at h1; cases h1
    | ok u =>
      rw [hc, Go.ok_bind] at h1
      obtain ⟨hne, -⟩ := vec_check_mem hc
      have hv : v.check ≠ .ok () := h.resolve_left (not_not_intro hc)
      obtain ⟨m, l', rfl⟩ := List.exists_cons_of_ne_nil hne
      have h2 : monoVecStepVal v m = .error (match v.check with | .error e => e | .ok _ => .other) ∨
          ∃ e, monoVecStepVal v m = .error e := by
        right
        unfold monoVecStepVal
        rcases mono_derivative_cases m v with ⟨-, h3, -⟩ | ⟨e, he, -⟩
        · exact absurd h3 hv
        · exact ⟨e, by rw [he]; rfl⟩
      obtain ⟨e, he⟩ : ∃ e, monoVecStepVal v m = .error e := h2.elim (fun h => ⟨_, h⟩) id
      rw [List.mapM_cons, he] at h1
      cases h1

theorem mv_spec (v : Var R) (l : List (HMono R)) (h : Heap R) (ha : LM.list.Valid h.exps l)
    (hnd : (LM.list.addrs l).Nodup) (pvs : List (List (HPoly R))) :
    Spec LM.list (LO pvs) (pMonoVecDerivative v) (fun x => Expr.derivative (.v (.m x)) v)
      (fun x => match Vec.derivative (.m x) v with
        | .ok _ => x.map fun m => (m.afterDerivative v).afterDerivative v
        | .error _ => x) l h := by
  refine (Spec.read (chk := fun h => Vec.check (.m (l.map (HMono.load h.exps)))) (chk' := fun x => Vec.check (.m x))
    rfl (Spec.bind (Spec.traverse l ha hnd fun m _ h' hm _ => monoVecStep_spec v m h' hm) ha
      fun b _ h' hb => monoVecOut_safe pvs b h' hb)).congr rfl (expr_mv_eq _ _) ?_
  generalize LM.list.load h.exps l = x
  cases hc : Vec.check (.m x) with
  | error e =>
    obtain ⟨e', he⟩ := monoVec_bad (v := v) (l := x) (Or.inl (by rw [hc]; simp))
    rw [he]
  | ok u =>
    obtain ⟨hne, hm⟩ := vec_check_mem hc
    cases hv : v.check with
    | ok u' =>
      obtain ⟨y, hy⟩ := monoVec_ok hv hc
      rw [hy]
      simp only
      rw [afterAll_ok fun m hmx => by
        obtain ⟨b, d, h1, -⟩ := monoVecStep_cases hv (hm m hmx)
        exact ⟨_, h1⟩]
      refine List.map_inj_left.mpr fun m hmx => ?_
      unfold Mono.afterCall2
      rcases mono_derivative_cases m v with ⟨-, -, z, hz, -⟩ | ⟨e, -, he⟩
      · rw [hz]
      · have := he (hm m hmx)
        rw [hv] at this
        cases this
    | error e =>
      obtain ⟨e', he⟩ := monoVec_bad (v := v) (l := x) (Or.inr (by rw [hv]; simp))
      rw [he]
      simp only
      obtain ⟨m, l', rfl⟩ := List.exists_cons_of_ne_nil hne
      rcases mono_derivative_cases m v with ⟨-, h3, -⟩ | ⟨e2, he2, -⟩
      · rw [hv] at h3; cases h3
      · have h4 : monoVecStepVal v m = .error e2 := by unfold monoVecStepVal; rw [he2]; rfl
        rw [afterAll, h4]
        unfold Mono.afterCall2
        rw [he2]

theorem mv_safe (v : Var R) (l : List (HMono R)) (h : Heap R) (ha : LM.list.Valid h.exps l)
    (hs : ∀ m ∈ LM.list.load h.exps l, m.afterCall v = m) (pvs : List (List (HPoly R))) :
    Safe LM.list (LO pvs) (pMonoVecDerivative v) (fun x => Expr.derivative (.v (.m x)) v) l h :=
  (Safe.read (chk := fun h => Vec.check (.m (l.map (HMono.load h.exps)))) (chk' := fun x => Vec.check (.m x))
    rfl fun _ => Safe.bind (Safe.traverse (P := fun m => m.afterCall v = m) l ha
        (fun m hm => hs _ (List.mem_map_of_mem hm)) fun m _ h' hm hP => monoVecStep_safe v m h' hm hP)
      fun b _ h' hb => monoVecOut_safe pvs b h' hb).congr rfl (expr_mv_eq _ _)

/-! ## `MonomialMatrix` -/

/-- The entries are constants and monomials. -/
def KM (rows : List (List (HScalar R))) : Prop :=
  ∀ row ∈ rows, ∀ e ∈ row, (∃ c, e = .k c) ∨ ∃ m, e = .mono m

theorem toMono_safe (e : HScalar R) (h : Heap R) (he : LS.Valid h.exps e) :
    Safe LS LM pToMono Scalar.toMono e h := by
  cases e with
  | k c =>
    exact (alloc_safe (L := LS) (M := LM) (l := []) (fun i => (⟨c, i, []⟩ : HMono R)) (kToMono c)
      new_mono_load (fun x hx => by simpa [LM] using hx)).congr rfl rfl
  | mono m =>
    exact (Safe.ret (L := LS) (M := LM) (f := fun _ => m) (g := fun _ => m.load h.exps) rfl
      (fun x hx => by simpa [LM, LS, HScalar.addrs] using hx) he).congr rfl rfl
  | var w =>
    exact (alloc_safe (L := LS) (M := LM) (l := [1]) (fun i => (⟨GoNum.one, i, [w]⟩ : HMono R)) w.toMono
      new_mono_load (fun x hx => by simpa [LM] using hx)).congr rfl rfl
  | poly p => exact Safe.panic.congr rfl rfl

theorem toK_safe (e : HScalar R) (h : Heap R) (he : LS.Valid h.exps e) :
    Safe LS (Loader.const R) (fun (e : HScalar R) => (match e with
      | .k c => pure c
      | _ => PM.panic .other : PM (Heap R) R)) Scalar.toK e h := by
  cases e with
  | k c =>
    exact (Safe.ret (L := LS) (M := Loader.const R) (f := fun _ => c) (g := fun _ => c) rfl
      (fun x hx => by cases hx) he).congr rfl rfl
  | mono m => exact Safe.panic.congr rfl rfl
  | var w => exact Safe.panic.congr rfl rfl
  | poly p => exact Safe.panic.congr rfl rfl

theorem const_list_list (rows : List (List R)) (h : ExpHeap) : (Loader.const R).list.list.load h rows = rows := by
  show rows.map (fun l => l.map fun a => a) = rows
  simp

theorem forM_map' {α β : Type} (f : α → β) (g : β → Go Unit) (l : List α) :
    (l.map f).forM g = l.forM fun a => g (f a) := by
  induction l with
  | nil => rfl
  | cons a l ih =>
    show (g (f a) >>= fun _ => (l.map f).forM g) = (g (f a) >>= fun _ => l.forM fun a => g (f a))
    rw [ih]

theorem rowsCheck_map {α β : Type} (f : α → β) (rows : List (List α)) :
    rowsCheck (rows.map (·.map f)) = rowsCheck rows := by
  cases rows with
  | nil => rfl
  | cons r0 rest =>
    have h1 : rowsCheck ((r0 :: rest).map (·.map f)) = ((r0 :: rest).map (·.map f)).forM
        (fun row => if row.length ≠ (r0.map f).length then throw .other else pure ()) := rfl
    rw [h1, forM_map']
    simp only [List.length_map]
    rfl

/-- `concretizeMat` for constants and monomials. -/
theorem concretizeMat_km {rows : List (List (Scalar R))}
    (hk : ∀ row ∈ rows, ∀ e ∈ row, (∃ c, e = Scalar.k c) ∨ ∃ m, e = Scalar.mono m) :
    concretizeMat rows = (rowsCheck rows >>= fun _ =>
      if rows.flatten.any Scalar.isMono then rows.mapM (·.mapM Scalar.toMono) >>= fun ms => .ok (.m ms)
      else if rows.flatten.isEmpty then .ok (.v (rows.map fun _ => []))
      else rows.mapM (·.mapM Scalar.toK) >>= fun ks => .ok (.k ks)) := by
  have hflat : ∀ e ∈ rows.flatten, (∃ c, e = Scalar.k c) ∨ ∃ m, e = Scalar.mono m := by
    intro e he
    obtain ⟨row, h1, h2⟩ := List.mem_flatten.mp he
    exact hk row h1 e h2
  have hp : rows.flatten.any Scalar.isPoly = false := by
    rw [List.any_eq_false]
    intro e he
    rcases hflat e he with ⟨c, rfl⟩ | ⟨m, rfl⟩ <;> simp [Scalar.isPoly]
  have hv : rows.flatten.any Scalar.isVar = false := by
    rw [List.any_eq_false]
    intro e he
    rcases hflat e he with ⟨c, rfl⟩ | ⟨m, rfl⟩ <;> simp [Scalar.isVar]
  have hconc : concretizeMat rows = (rowsCheck rows >>= fun _ =>
      if rows.flatten.any Scalar.isPoly then .ok (.p (rows.map (·.map Scalar.toPoly)))
      else if rows.flatten.any Scalar.isMono || (rows.flatten.any Scalar.isVar && rows.flatten.any Scalar.isK) then
        rows.mapM (·.mapM Scalar.toMono) >>= fun ms => .ok (.m ms)
      else if rows.flatten.all Scalar.isVar then rows.mapM (·.mapM Scalar.toVar) >>= fun vs => .ok (.v vs)
      else if rows.flatten.any Scalar.isK then rows.mapM (·.mapM Scalar.toK) >>= fun ks => .ok (.k ks)
      else .error .other) := by
    cases rows <;> rfl
  rw [hconc, hp, hv]
  simp only [Bool.false_eq_true, if_false, Bool.false_and, Bool.or_false]
  cases rowsCheck rows with
  | error e => rfl
  | ok u =>
    simp only [Go.ok_bind]
    by_cases hm : rows.flatten.any Scalar.isMono = true
    · rw [if_pos hm, if_pos hm]
    · rw [if_neg hm, if_neg hm]
      by_cases he : rows.flatten.isEmpty = true
      · have he' : rows.flatten = [] := by simpa using he
        rw [if_pos he, he']
        simp only [List.all_nil, if_true]
        have hr : ∀ row ∈ rows, row = [] := List.flatten_eq_nil_iff.mp he'
        have : rows.mapM (·.mapM Scalar.toVar) = .ok (rows.map fun _ => []) := by
          clear * - hr
          induction rows with
          | nil => rfl
          | cons r rs ih =>
            rw [List.mapM_cons, hr r (by simp), ih fun row h => hr row (by simp [h])]
            rfl
        rw [this]
        rfl
      · rw [if_neg he]
        obtain ⟨e0, l, hl⟩ := List.exists_cons_of_ne_nil (show rows.flatten ≠ [] by simpa using he)
        have hk0 : ∃ c, e0 = Scalar.k c := by
          rcases hflat e0 (by rw [hl]; simp) with h1 | ⟨m, rfl⟩
          · exact h1
          · exact absurd (List.any_eq_true.mpr ⟨Scalar.mono m, by rw [hl]; simp, rfl⟩) hm
        obtain ⟨c, rfl⟩ := hk0
        rw [if_neg, if_pos]
        · exact List.any_eq_true.mpr ⟨Scalar.k c, by rw [hl]; simp, rfl⟩
        · rw [hl]; simp [Scalar.isVar]

/-- `pConcretizeMat` after the test. -/
def concF (rows : List (List (HScalar R))) : PM (Heap R) (HObj R) :=
  if rows.flatten.any HScalar.isMono then PM.traverse (PM.traverse pToMono) rows >>= fun ms => pure (.mm ms)
  else if rows.flatten.isEmpty then pure (.vm (rows.map (fun _ => [])))
  else PM.traverse (PM.traverse (fun (e : HScalar R) => match e with
    | .k c => pure c
    | _ => PM.panic .other)) rows >>= fun ks => pure (.km ks)

def concG (rows : List (List (Scalar R))) : Go (Expr R) :=
  if rows.flatten.any Scalar.isMono then rows.mapM (·.mapM Scalar.toMono) >>= fun ms => .ok (.m (.m ms))
  else if rows.flatten.isEmpty then .ok (.m (.v (rows.map fun _ => [])))
  else rows.mapM (·.mapM Scalar.toK) >>= fun ks => .ok (.m (.k ks))

theorem concretize_safe (pvs : List (List (HPoly R))) (rows : List (List (HScalar R))) (h : Heap R)
    (hk : KM rows) (hr : LS.list.list.Valid h.exps rows) :
    Safe LS.list.list (LO pvs) pConcretizeMat (fun x => concretizeMat x >>= fun y => .ok (.m y)) rows h := by
  have hk' : ∀ row ∈ LS.list.list.load h.exps rows, ∀ e ∈ row, (∃ c, e = Scalar.k c) ∨ ∃ m, e = Scalar.mono m := by
    intro row hrow e he
    obtain ⟨row', h1, rfl⟩ := List.mem_map.mp hrow
    obtain ⟨e', h2, rfl⟩ := List.mem_map.mp he
    rcases hk row' h1 e' h2 with ⟨c, rfl⟩ | ⟨m, rfl⟩
    · exact Or.inl ⟨c, rfl⟩
    · exact Or.inr ⟨_, rfl⟩
  have hfl : (LS.list.list.load h.exps rows).flatten = rows.flatten.map (LS.load h.exps) := by
    simp only [Loader.list, List.map_flatten]
  have hany : (LS.list.list.load h.exps rows).flatten.any Scalar.isMono = rows.flatten.any HScalar.isMono := by
    rw [hfl, List.any_map]
    congr 1
    funext e
    exact (hIsMono e).symm
  have hemp : (LS.list.list.load h.exps rows).flatten.isEmpty = rows.flatten.isEmpty := by
    rw [hfl, List.isEmpty_map]
  have h1 : Safe LS.list.list (LO pvs) (fun rows => PM.read (fun _ => rowsCheck rows) >>= fun _ => concF rows)
      (fun rows => rowsCheck rows >>= fun _ => concG rows) rows h := by
    refine Safe.congr (Safe.read (f := concF) (g := concG) (chk := fun _ => rowsCheck rows) (chk' := rowsCheck)
      (rowsCheck_map (LS.load h.exps) rows).symm fun _ => ?_) rfl rfl
    by_cases hm : rows.flatten.any HScalar.isMono = true
    · refine (Safe.bind (Safe.traverse (P := fun _ => True) rows hr (fun _ _ => trivial) fun row _ h' hrow _ =>
        Safe.traverse (P := fun _ => True) row hrow (fun _ _ => trivial) fun e _ h2 he _ => toMono_safe e h2 he)
        (N := LO pvs) (f' := fun ms => pure (HObj.mm ms)) (g' := fun ms => .ok (.m (.m ms)))
        fun b _ h' hb => Safe.ret rfl (fun x hx => hx) hb).congr ?_ ?_
      · unfold concF
        rw [if_pos hm]
      · unfold concG
        rw [hany, if_pos hm]
    · by_cases he : rows.flatten.isEmpty = true
      · refine (Safe.ret (L := LS.list.list) (M := LO pvs) (f := fun rows => HObj.vm (rows.map fun _ => []))
          (g := fun rows => Expr.m (.v (rows.map fun _ => []))) ?_ (fun x hx => by cases hx) hr).congr ?_ ?_
        · show Expr.m (.v (rows.map fun _ => [])) = Expr.m (.v ((rows.map _).map fun _ => []))
          rw [List.map_map]
          rfl
        · unfold concF
          rw [if_neg hm, if_pos he]
        · unfold concG
          rw [hany, if_neg hm, hemp, if_pos he]
      · refine (Safe.bind (Safe.traverse (P := fun _ => True) rows hr (fun _ _ => trivial) fun row _ h' hrow _ =>
          Safe.traverse (P := fun _ => True) row hrow (fun _ _ => trivial) fun e _ h2 he _ => toK_safe e h2 he)
          (N := LO pvs) (f' := fun ms => pure (HObj.km ms)) (g' := fun ms => .ok (.m (.k ms)))
          fun b _ h' hb => Safe.ret ?_ (fun x hx => by cases hx) hb).congr ?_ ?_
        · show Expr.m (.k b) = .m (.k ((Loader.const R).list.list.load h'.exps b))
          rw [const_list_list]
        · unfold concF
          rw [if_neg hm, if_neg he]
        · unfold concG
          rw [hany, if_neg hm, hemp, if_neg he]
  refine h1.congr rfl ?_
  rw [concretizeMat_km hk']
  unfold concG
  cases rowsCheck (LS.list.list.load h.exps rows) with
  | error e => rfl
  | ok u =>
    simp only [Go.ok_bind]
    split
    · cases (LS.list.list.load h.exps rows).mapM (·.mapM Scalar.toMono) <;> rfl
    · split
      · rfl
      · cases (LS.list.list.load h.exps rows).mapM (·.mapM Scalar.toK) <;> rfl

theorem expr_mm_eq (v : Var R) (rows : List (List (Mono R))) : Expr.derivative (.m (.m rows)) v =
    (Mat.check (.m rows) >>= fun _ => v.check >>= fun _ => rows.mapM (·.mapM (·.derivative v)) >>= fun ds =>
      concretizeMat ds >>= fun y => .ok (.m y)) := by
  show ((Mat.derivative (.m rows) v) >>= fun x => pure (Expr.m x)) = _
  unfold Mat.derivative
  simp only
  cases Mat.check (.m rows) with
  | error e => rfl
  | ok u =>
    cases v.check with
    | error e => rfl
    | ok u' =>
      simp only [Go.ok_bind]
      cases rows.mapM (·.mapM (·.derivative v)) with
      | error e => rfl
      | ok ds =>
        simp only [Go.ok_bind]
        cases concretizeMat ds <;> rfl

theorem forM_ok_mem {α : Type} {chk : α → Go Unit} {l : List α} (h : l.forM chk = .ok ()) :
    ∀ a ∈ l, chk a = .ok () := by
  induction l with
  | nil => intro m hm; cases hm
  | cons a l ih =>
    have h : (chk a >>= fun _ => l.forM chk) = .ok () := h
    cases ha : chk a with
    | error e => rw [ha] at h; cases h
    | ok u =>
      rw [ha] at h
      rw [List.forall_mem_cons]
      exact ⟨ha, ih h⟩

theorem forM_ok_of {α : Type} {chk : α → Go Unit} {l : List α} (h : ∀ a ∈ l, chk a = .ok ()) :
    l.forM chk = .ok () := by
  induction l with
  | nil => rfl
  | cons a l ih =>
    show (chk a >>= fun _ => l.forM chk) = .ok ()
    rw [h a (by simp), Go.ok_bind, ih fun b hb => h b (by simp [hb])]

theorem checkRows_mem {α : Type} {rows : List (List α)} {chk : α → Go Unit} (h : checkRows rows chk = .ok ()) :
    (∃ r0 rest, rows = r0 :: rest ∧ ∀ row ∈ rows, row.length = r0.length) ∧
      ∀ row ∈ rows, ∀ a ∈ row, chk a = .ok () := by
  unfold checkRows at h
  cases rows with
  | nil => cases h
  | cons r0 rest =>
    simp only at h
    cases h1 : (r0 :: rest).forM (fun row => if row.length ≠ r0.length then throw .check else pure () : _ → Go Unit) with
    | error e => rw [h1] at h; cases h
    | ok u =>
      rw [h1, Go.ok_bind] at h
      refine ⟨⟨r0, rest, rfl, fun row hr => ?_⟩, fun row hr a ha => forM_ok_mem (forM_ok_mem h row hr) a ha⟩
      have h2 := forM_ok_mem h1 row hr
      by_contra hne
      rw [if_pos hne] at h2
      cases h2

theorem mapM_src {α β : Type} {f : α → Go β} {l : List α} : ∀ {r : List β}, l.mapM f = .ok r →
    ∀ {b : β}, b ∈ r → ∃ a ∈ l, f a = .ok b := by
  induction l with
  | nil =>
    intro r h b hb
    cases h
    cases hb
  | cons x l ih =>
    intro r h b hb
    rw [List.mapM_cons] at h
    cases hx : f x with
    | error e => rw [hx] at h; cases h
    | ok y =>
      rw [hx, Go.ok_bind] at h
      cases hl : l.mapM f with
      | error e => rw [hl] at h; cases h
      | ok ys =>
        rw [hl] at h
        cases h
        rcases List.mem_cons.mp hb with rfl | hb
        · exact ⟨x, by simp, hx⟩
        · obtain ⟨a, ha, hf⟩ := ih hl hb
          exact ⟨a, List.mem_cons_of_mem _ ha, hf⟩

/-- The derivatives of the entries are constants and monomials. -/
theorem deriv_rows_km {v : Var R} {rows : List (List (Mono R))} {ds : List (List (Scalar R))}
    (h : rows.mapM (·.mapM (·.derivative v)) = .ok ds) :
    ∀ row ∈ ds, ∀ e ∈ row, (∃ c, e = Scalar.k c) ∨ ∃ m, e = Scalar.mono m := by
  intro row hrow e he
  obtain ⟨r, -, hr⟩ := mapM_src h hrow
  obtain ⟨m, -, hm⟩ := mapM_src hr he
  rcases mono_derivative_cases m v with ⟨-, -, x, hx, hk⟩ | ⟨e', he', -⟩
  · rw [hx] at hm
    cases hm
    exact hk
  · rw [he'] at hm
    cases hm

theorem mm_cont (v : Var R) (rows : List (List (HMono R))) (h : Heap R) (pvs : List (List (HPoly R)))
    {f : List (List (HMono R)) → PM (Heap R) (List (List (HScalar R)))}
    (hv : (f rows h).1.map (LS.list.list.load (f rows h).2.exps) =
      (LM.list.list.load h.exps rows).mapM (·.mapM (·.derivative v))) (b : List (List (HScalar R)))
    (hb : (f rows h).1 = .ok b) (h' : Heap R) (hval : LS.list.list.Valid h'.exps b) :
    Safe LS.list.list (LO pvs) pConcretizeMat (fun x => concretizeMat x >>= fun y => .ok (.m y)) b h' := by
  refine concretize_safe pvs b h' ?_ hval
  rw [hb, Go.map_ok] at hv
  have h1 := deriv_rows_km hv.symm
  intro row hrow e he
  rcases h1 _ (List.mem_map_of_mem hrow) _ (List.mem_map_of_mem he) with ⟨c, hc⟩ | ⟨m, hm⟩
  · cases e <;> first | exact Or.inl ⟨_, rfl⟩ | cases hc
  · cases e <;> first | exact Or.inr ⟨_, rfl⟩ | cases hm

theorem monoMat_ok {v : Var R} (hv : v.check = .ok ()) {rows : List (List (Mono R))}
    (hl : Mat.check (.m rows) = .ok ()) : ∃ x, Mat.derivative (.m rows) v = .ok x := by
  obtain ⟨⟨r0, rest, hr0, hlen⟩, hm⟩ := checkRows_mem hl
  obtain ⟨ds, hds, hQ⟩ := Go.mapM_ok (fun row : List (Mono R) => row.mapM (·.derivative v))
    (fun row r => r.length = row.length) rows fun row hrow => by
      obtain ⟨r, hr, hQ⟩ := Go.mapM_ok (fun m : Mono R => m.derivative v) (fun _ _ => True) row fun m hmr => by
        rcases mono_derivative_cases m v with ⟨-, -, x, hx, -⟩ | ⟨e, -, he⟩
        · exact ⟨x, hx, trivial⟩
        · have := he (hm row hrow m hmr)
          rw [hv] at this
          cases this
      exact ⟨r, hr, hQ.length_eq.symm⟩
  have hk := deriv_rows_km hds
  have hlen' : ∀ r ∈ ds, r.length = r0.length := by
    intro r hr
    obtain ⟨row, hrow, h1⟩ := mapM_src hds hr
    have h2 : row.length = r.length := by
      obtain ⟨r', hr', hQ'⟩ := Go.mapM_ok (fun m : Mono R => m.derivative v) (fun _ _ => True) row fun m hmr => by
        rcases mono_derivative_cases m v with ⟨-, -, x, hx, -⟩ | ⟨e, -, he⟩
        · exact ⟨x, hx, trivial⟩
        · have := he (hm row hrow m hmr)
          rw [hv] at this
          cases this
      rw [h1] at hr'
      cases hr'
      exact hQ'.length_eq
    rw [← h2, hlen row hrow]
  have hck : rowsCheck ds = .ok () := by
    unfold rowsCheck
    cases ds with
    | nil => rw [hr0] at hQ; cases hQ
    | cons d0 dr =>
      refine forM_ok_of fun r hr => ?_
      rw [if_neg]
      · rfl
      · rw [hlen' r hr, hlen' d0 (by simp)]
        simp
  have hc : ∃ y, concretizeMat ds = .ok y := by
    rw [concretizeMat_km hk, hck, Go.ok_bind]
    split
    · obtain ⟨r, hr, -⟩ := Go.mapM_ok (fun row : List (Scalar R) => row.mapM Scalar.toMono) (fun _ _ => True) ds
        fun row hrow => by
          obtain ⟨r, hr, -⟩ := Go.mapM_ok Scalar.toMono (fun _ _ => True) row fun e he => by
            rcases hk row hrow e he with ⟨c, rfl⟩ | ⟨m, rfl⟩ <;> exact ⟨_, rfl, trivial⟩
          exact ⟨r, hr, trivial⟩
      rw [hr]
      exact ⟨_, rfl⟩
    · split
      · exact ⟨_, rfl⟩
      · rename_i hnm _
        obtain ⟨r, hr, -⟩ := Go.mapM_ok (fun row : List (Scalar R) => row.mapM Scalar.toK) (fun _ _ => True) ds
          fun row hrow => by
            obtain ⟨r, hr, -⟩ := Go.mapM_ok Scalar.toK (fun _ _ => True) row fun e he => by
              rcases hk row hrow e he with ⟨c, rfl⟩ | ⟨m, rfl⟩
              · exact ⟨_, rfl, trivial⟩
              · exact absurd (List.any_eq_true.mpr ⟨_, List.mem_flatten.mpr ⟨row, hrow, he⟩, rfl⟩) hnm
            exact ⟨r, hr, trivial⟩
        rw [hr]
        exact ⟨_, rfl⟩
  obtain ⟨y, hy⟩ := hc
  refine ⟨y, ?_⟩
  unfold Mat.derivative
  simp only
  rw [hl, hv, Go.ok_bind, Go.ok_bind, hds, Go.ok_bind, hy]

theorem monoMat_bad {v : Var R} {rows : List (List (Mono R))}
    (h : Mat.check (.m rows) ≠ .ok () ∨ v.check ≠ .ok ()) : ∃ e, Mat.derivative (.m rows) v = .error e := by
  unfold Mat.derivative
  simp only
  cases hc : Mat.check (.m rows) with
  | error e => exact ⟨e, rfl⟩
  | ok u =>
    cases hv : v.check with
    | error e => exact ⟨e, rfl⟩
    | ok u' => exact absurd h (by simp [hc, hv])

theorem mm_spec (v : Var R) (rows : List (List (HMono R))) (h : Heap R) (ha : LM.list.list.Valid h.exps rows)
    (hnd : (LM.list.list.addrs rows).Nodup) (pvs : List (List (HPoly R))) :
    Spec LM.list.list (LO pvs) (pMonoMatDerivative v) (fun x => Expr.derivative (.m (.m x)) v)
      (fun x => match Mat.derivative (.m x) v with
        | .ok _ => x.map (·.map (·.afterDerivative v))
        | .error _ => x) rows h := by
  have h1 : Spec LM.list.list LS.list.list (PM.traverse (PM.traverse (pMonoDerivative v)))
      (fun x => x.mapM (·.mapM (·.derivative v)))
      (afterAll (fun row => row.mapM (·.derivative v)) (afterAll (·.derivative v) (Mono.afterCall v))) rows h :=
    Spec.traverse rows ha hnd fun row _ h' hrow hn => Spec.traverse row hrow hn fun m _ h2 hm _ =>
      mono_spec v m h2 hm
  have h2 := Spec.bind h1 ha fun b hb h' hval => mm_cont v rows h pvs h1.value b hb h' hval
  have h3 := Spec.read (chk := fun _ => v.check) (chk' := fun _ => v.check) rfl h2
  have h4 := Spec.read (chk := fun h => Mat.check (.m (rows.map (·.map (HMono.load h.exps)))))
    (chk' := fun x => Mat.check (.m x)) rfl h3
  refine h4.congr rfl (expr_mm_eq _ _) ?_
  generalize LM.list.list.load h.exps rows = x
  cases hc : Mat.check (.m x) with
  | error e =>
    obtain ⟨e', he⟩ := monoMat_bad (v := v) (rows := x) (Or.inl (by rw [hc]; simp))
    rw [he]
  | ok u =>
    cases hv : v.check with
    | error e =>
      obtain ⟨e', he⟩ := monoMat_bad (v := v) (rows := x) (Or.inr (by rw [hv]; simp))
      rw [he]
    | ok u' =>
      obtain ⟨y, hy⟩ := monoMat_ok hv hc
      obtain ⟨-, hm⟩ := checkRows_mem hc
      have hok : ∀ row ∈ x, ∀ m ∈ row, ∃ b, m.derivative v = .ok b := by
        intro row hrow m hmr
        rcases mono_derivative_cases m v with ⟨-, -, z, hz, -⟩ | ⟨e, -, he⟩
        · exact ⟨z, hz⟩
        · have := he (hm row hrow m hmr)
          rw [hv] at this
          cases this
      rw [hy]
      simp only
      rw [afterAll_ok fun row hrow => by
        obtain ⟨r, hr, -⟩ := Go.mapM_ok (fun m : Mono R => m.derivative v) (fun _ _ => True) row fun m hmr => by
          obtain ⟨b, hb⟩ := hok row hrow m hmr
          exact ⟨b, hb, trivial⟩
        exact ⟨r, hr⟩]
      refine List.map_inj_left.mpr fun row hrow => ?_
      rw [afterAll_ok (hok row hrow)]
      exact List.map_inj_left.mpr fun m hmr => (mono_afterCall_ok hv (hm row hrow m hmr)).symm

theorem mm_safe (v : Var R) (rows : List (List (HMono R))) (h : Heap R) (ha : LM.list.list.Valid h.exps rows)
    (hs : ∀ row ∈ LM.list.list.load h.exps rows, ∀ m ∈ row, m.afterCall v = m) (pvs : List (List (HPoly R))) :
    Safe LM.list.list (LO pvs) (pMonoMatDerivative v) (fun x => Expr.derivative (.m (.m x)) v) rows h := by
  have h1 : Safe LM.list.list LS.list.list (PM.traverse (PM.traverse (pMonoDerivative v)))
      (fun x => x.mapM (·.mapM (·.derivative v))) rows h :=
    Safe.traverse (P := fun row => ∀ m ∈ row, m.afterCall v = m) rows ha
      (fun row hrow => hs _ (List.mem_map_of_mem hrow)) fun row _ h' hrow hP =>
      Safe.traverse (P := fun m => m.afterCall v = m) row hrow (fun m hm => hP _ (List.mem_map_of_mem hm))
        fun m _ h2 hm hP' => mono_safe v m h2 hm hP'
  exact (Safe.read (chk := fun h => Mat.check (.m (rows.map (·.map (HMono.load h.exps)))))
    (chk' := fun x => Mat.check (.m x)) rfl fun _ => Safe.read (chk := fun _ => v.check)
      (chk' := fun _ => v.check) rfl fun _ => Safe.bind h1 fun b hb h' hval =>
        mm_cont v rows h pvs h1.value b hb h' hval).congr rfl (expr_mm_eq _ _)

/-! ## `PolynomialMatrix` -/

theorem expr_pm_eq (v : Var R) (rows : List (List (Poly R))) : Expr.derivative (.m (.p rows)) v =
    (Mat.check (.p rows) >>= fun _ => v.check >>= fun _ => rows.mapM (·.mapM (·.derivPoly v)) >>= fun ds =>
      .ok (.m (.p ds))) := by
  show ((Mat.derivative (.p rows) v) >>= fun x => pure (Expr.m x)) = _
  unfold Mat.derivative
  simp only
  cases Mat.check (.p rows) with
  | error e => rfl
  | ok u =>
    cases v.check with
    | error e => rfl
    | ok u' =>
      simp only [Go.ok_bind]
      cases rows.mapM (·.mapM (·.derivPoly v)) <;> rfl

theorem pm_spec (v : Var R) (rows : List (List (HPoly R))) (h : Heap R) (ha : LP.list.list.Valid h.exps rows)
    (hnd : (LP.list.list.addrs rows).Nodup) (pvs : List (List (HPoly R))) :
    Spec LP.list.list (LO pvs) (pPolyMatDerivative v) (fun x => Expr.derivative (.m (.p x)) v)
      (fun x => match Mat.check (.p x) with
        | .ok _ => (match v.check with
          | .ok _ => afterAll (fun row => row.mapM (·.derivPoly v)) (polyRowAfter v) x
          | .error _ => x)
        | .error _ => x) rows h := by
  have h1 : Spec LP.list.list LP.list.list (PM.traverse (PM.traverse (pDerivPoly v)))
      (fun x => x.mapM (·.mapM (·.derivPoly v)))
      (afterAll (fun row => row.mapM (·.derivPoly v)) (polyRowAfter v)) rows h :=
    Spec.traverse rows ha hnd fun row _ h' hrow hn => Spec.traverse row hrow hn fun p _ h2 hp hpn =>
      derivPoly_spec v p h2 hp hpn
  have h2 := Spec.bind h1 ha (N := LO pvs) (f' := fun ds => pure (HObj.pm ds)) (g' := fun ds => .ok (.m (.p ds)))
    fun b hb h' hval => Safe.ret rfl (fun x hx => hx) hval
  have h3 := Spec.read (chk := fun _ => v.check) (chk' := fun _ => v.check) rfl h2
  have h4 := Spec.read (chk := fun h => Mat.check (.p (rows.map (·.map (HPoly.load h.exps)))))
    (chk' := fun x => Mat.check (.p x)) rfl h3
  exact h4.congr rfl (expr_pm_eq _ _) rfl

theorem pm_safe (v : Var R) (rows : List (List (HPoly R))) (h : Heap R) (ha : LP.list.list.Valid h.exps rows)
    (hs : ∀ row ∈ LP.list.list.load h.exps rows, ∀ p ∈ row, p.afterCall v = p) (pvs : List (List (HPoly R))) :
    Safe LP.list.list (LO pvs) (pPolyMatDerivative v) (fun x => Expr.derivative (.m (.p x)) v) rows h := by
  have h1 : Safe LP.list.list LP.list.list (PM.traverse (PM.traverse (pDerivPoly v)))
      (fun x => x.mapM (·.mapM (·.derivPoly v))) rows h :=
    Safe.traverse (P := fun row => ∀ p ∈ row, p.afterCall v = p) rows ha
      (fun row hrow => hs _ (List.mem_map_of_mem hrow)) fun row _ h' hrow hP =>
      Safe.traverse (P := fun p => p.afterCall v = p) row hrow (fun m hm => hP _ (List.mem_map_of_mem hm))
        fun p _ h2 hp hP' => derivPoly_safe v p h2 hp hP'
  exact (Safe.read (chk := fun h => Mat.check (.p (rows.map (·.map (HPoly.load h.exps)))))
    (chk' := fun x => Mat.check (.p x)) rfl fun _ => Safe.read (chk := fun _ => v.check)
      (chk' := fun _ => v.check) rfl fun _ => Safe.bind h1 (N := LO pvs) (f' := fun ds => pure (HObj.pm ds))
        (g' := fun ds => .ok (.m (.p ds))) fun b hb h' hval => Safe.ret rfl (fun x hx => hx) hval).congr rfl
      (expr_pm_eq _ _)

/-! ## All kinds but `PolynomialVector` -/

/-- The kinds without exponents. -/
theorem plain_safe (v : Var R) (o : HObj R) (h : Heap R) (pvs : List (List (HPoly R)))
    (ho : (∃ l, o = .kv l) ∨ (∃ l, o = .vv l) ∨ (∃ l, o = .km l) ∨ ∃ l, o = .vm l) :
    Safe (LO pvs) (LO pvs) (HObj.derivative v) (·.derivative v) o h := by
  rcases ho with ⟨l, rfl⟩ | ⟨l, rfl⟩ | ⟨l, rfl⟩ | ⟨l, rfl⟩
  · refine (Safe.pureRead (L := LO pvs) (M := LO pvs) (r := do
        match ← Vec.derivative (.k l) v with
        | .k r => pure (.kv r)
        | _ => throw .other) (g := fun _ => (Expr.v (.k l)).derivative v) ?_ ?_).congr rfl rfl
    · simp only [Expr.derivative, Vec.derivative]
      cases newVecDense (l.map fun _ => (GoNum.zero : R)) <;> rfl
    · simp only [Vec.derivative]
      cases newVecDense (l.map fun _ => (GoNum.zero : R)) <;> (intro b hb; cases hb; try rfl)
  · refine (Safe.pureRead (L := LO pvs) (M := LO pvs) (r := do
        match ← Vec.derivative (.v l) v with
        | .k r => pure (.kv r)
        | _ => throw .other) (g := fun _ => (Expr.v (.v l)).derivative v) ?_ ?_).congr rfl rfl
    · simp only [Expr.derivative, Vec.derivative]
      cases Vec.check (.v l) with
      | error e => rfl
      | ok u =>
        cases v.check with
        | error e => rfl
        | ok u' =>
          simp only [Go.ok_bind]
          cases newVecDense (l.map fun w => if w.id = v.id then (GoNum.one : R) else GoNum.zero) <;> rfl
    · simp only [Vec.derivative]
      cases Vec.check (.v l) with
      | error e => intro b hb; cases hb
      | ok u =>
        cases v.check with
        | error e => intro b hb; cases hb
        | ok u' =>
          simp only [Go.ok_bind]
          cases newVecDense (l.map fun w => if w.id = v.id then (GoNum.one : R) else GoNum.zero) <;>
            (intro b hb; cases hb; try rfl)
  · refine (Safe.pureRead (L := LO pvs) (M := LO pvs) (r := do
        match ← Mat.derivative (.k l) v with
        | .k r => pure (.km r)
        | _ => throw .other) (g := fun _ => (Expr.m (.k l)).derivative v) ?_ ?_).congr rfl rfl
    · simp only [Expr.derivative, Mat.derivative]
      cases rowDims l with
      | error e => rfl
      | ok d =>
        simp only [Go.ok_bind]
        split <;> rfl
    · simp only [Mat.derivative]
      cases rowDims l with
      | error e => intro b hb; cases hb
      | ok d =>
        simp only [Go.ok_bind]
        split <;> (intro b hb; cases hb; try rfl)
  · refine (Safe.pureRead (L := LO pvs) (M := LO pvs) (r := do
        match ← Mat.derivative (.v l) v with
        | .k r => pure (.km r)
        | _ => throw .other) (g := fun _ => (Expr.m (.v l)).derivative v) ?_ ?_).congr rfl rfl
    · simp only [Expr.derivative, Mat.derivative]
      cases Mat.dims (.v l) with
      | error e => rfl
      | ok d =>
        simp only [Go.ok_bind]
        split <;> rfl
    · simp only [Mat.derivative]
      cases Mat.dims (.v l) with
      | error e => intro b hb; cases hb
      | ok d =>
        simp only [Go.ok_bind]
        split <;> (intro b hb; cases hb; try rfl)

theorem retS_safe (pvs : List (List (HPoly R))) (e : HScalar R) (h : Heap R) (he : LS.Valid h.exps e) :
    Safe LS (LO pvs) (fun r => (pure (HObj.s r) : PM (Heap R) (HObj R))) (fun x => .ok (.s x)) e h :=
  Safe.ret rfl (fun _ hx => hx) he

/-- A call on an object without shared slices, of any kind but `PolynomialVector`. -/
theorem obj_spec (v : Var R) (o : HObj R) (h : Heap R) (pvs : List (List (HPoly R))) (hpv : o.NotPV)
    (ha : (LO pvs).Valid h.exps o) (hnd : ((LO pvs).addrs o).Nodup) :
    Spec (LO pvs) (LO pvs) (HObj.derivative v) (·.derivative v) (Expr.afterCall v) o h := by
  cases o with
  | s e =>
    exact (Spec.bind (scalar_spec v e h ha hnd) ha fun b _ h' hb => retS_safe pvs b h' hb).wrap (L' := LO pvs)
      HObj.s Expr.s rfl (fun _ => rfl) rfl rfl rfl
  | kv l => exact ((plain_safe v (.kv l) h pvs (Or.inl ⟨l, rfl⟩)).spec ha).congr rfl rfl rfl
  | vv l => exact ((plain_safe v (.vv l) h pvs (Or.inr (Or.inl ⟨l, rfl⟩))).spec ha).congr rfl rfl rfl
  | mv l =>
    refine (mv_spec v l h ha hnd pvs).wrap (L' := LO pvs) HObj.mv (fun x => Expr.v (.m x)) rfl (fun _ => rfl) rfl rfl ?_
    show Expr.afterCall v (.v (.m _)) = _
    unfold Expr.afterCall
    simp only
    split <;> rfl
  | pv a => cases hpv
  | km l => exact ((plain_safe v (.km l) h pvs (Or.inr (Or.inr (Or.inl ⟨l, rfl⟩)))).spec ha).congr rfl rfl rfl
  | vm l => exact ((plain_safe v (.vm l) h pvs (Or.inr (Or.inr (Or.inr ⟨l, rfl⟩)))).spec ha).congr rfl rfl rfl
  | mm rows =>
    refine (mm_spec v rows h ha hnd pvs).wrap (L' := LO pvs) HObj.mm (fun x => Expr.m (.m x)) rfl (fun _ => rfl)
      rfl rfl ?_
    show Expr.afterCall v (.m (.m _)) = _
    unfold Expr.afterCall
    simp only
    split <;> rfl
  | pm rows =>
    refine (pm_spec v rows h ha hnd pvs).wrap (L' := LO pvs) HObj.pm (fun x => Expr.m (.p x)) rfl (fun _ => rfl)
      rfl rfl ?_
    show Expr.afterCall v (.m (.p _)) = _
    unfold Expr.afterCall
    simp only
    generalize LP.list.list.load h.exps rows = x
    cases Mat.check (.p x) with
    | error e => rfl
    | ok u => cases v.check <;> rfl

/-- Every monomial in the object is left alone by a call. -/
def HObj.Steady (v : Var R) (h : ExpHeap) : HObj R → Prop
  | .s e => (e.load h).afterCall v = e.load h
  | .mv l => ∀ m ∈ LM.list.load h l, m.afterCall v = m
  | .mm rows => ∀ row ∈ LM.list.list.load h rows, ∀ m ∈ row, m.afterCall v = m
  | .pm rows => ∀ row ∈ LP.list.list.load h rows, ∀ p ∈ row, p.afterCall v = p
  | .pv _ => False
  | _ => True

theorem obj_safe (v : Var R) (o : HObj R) (h : Heap R) (pvs : List (List (HPoly R)))
    (ha : (LO pvs).Valid h.exps o) (hs : o.Steady v h.exps) :
    Safe (LO pvs) (LO pvs) (HObj.derivative v) (·.derivative v) o h := by
  cases o with
  | s e =>
    exact (Safe.bind (scalar_safe v e h ha hs) fun b _ h' hb => retS_safe pvs b h' hb).wrap (L' := LO pvs)
      HObj.s Expr.s rfl (fun _ => rfl) rfl rfl
  | kv l => exact plain_safe v (.kv l) h pvs (Or.inl ⟨l, rfl⟩)
  | vv l => exact plain_safe v (.vv l) h pvs (Or.inr (Or.inl ⟨l, rfl⟩))
  | mv l => exact (mv_safe v l h ha hs pvs).wrap (L' := LO pvs) HObj.mv (fun x => Expr.v (.m x)) rfl (fun _ => rfl) rfl rfl
  | pv a => cases hs
  | km l => exact plain_safe v (.km l) h pvs (Or.inr (Or.inr (Or.inl ⟨l, rfl⟩)))
  | vm l => exact plain_safe v (.vm l) h pvs (Or.inr (Or.inr (Or.inr ⟨l, rfl⟩)))
  | mm rows =>
    exact (mm_safe v rows h ha hs pvs).wrap (L' := LO pvs) HObj.mm (fun x => Expr.m (.m x)) rfl (fun _ => rfl) rfl rfl
  | pm rows =>
    exact (pm_safe v rows h ha hs pvs).wrap (L' := LO pvs) HObj.pm (fun x => Expr.m (.p x)) rfl (fun _ => rfl) rfl rfl

/-! ## `PolynomialVector` -/

/-- What the loop of `PolynomialVector.DerivativeWrt` does to memory: `pre` are the entries already
replaced, `rest` those still to come. -/
structure LoopSpec (v : Var R) (a : ℕ) (pre rest : List (HPoly R)) (h : Heap R) (r : Go Unit × Heap R) :
    Prop where
  value : r.1.map (fun _ => (r.2.pv a).map (HPoly.load r.2.exps)) =
    ((rest.map (HPoly.load h.exps)).mapM fun p : Poly R => p.derivPoly v).map (pre.map (HPoly.load h.exps) ++ ·)
  self : (r.2.pv a).map (HPoly.load r.2.exps) =
    pre.map (HPoly.load h.exps) ++ polyVecAfter v (rest.map (HPoly.load h.exps))
  len : h.exps.length ≤ r.2.exps.length
  plen : r.2.pvs.length = h.pvs.length
  frame : ∀ x, x < h.exps.length → x ∉ LP.list.addrs rest → r.2.exps.getD x [] = h.exps.getD x []
  others : ∀ b, b ≠ a → r.2.pv b = h.pv b
  addrs : ∀ x ∈ LP.list.addrs (r.2.pv a), x < r.2.exps.length ∧
    (x ∈ LP.list.addrs (pre ++ rest) ∨ h.exps.length ≤ x)

theorem lp_list_append (l₁ l₂ : List (HPoly R)) :
    LP.list.addrs (l₁ ++ l₂) = LP.list.addrs l₁ ++ LP.list.addrs l₂ := List.flatMap_append

theorem pv_set_self {h : Heap R} {a : ℕ} (ha : a < h.pvs.length) (l : List (HPoly R)) :
    (Heap.pv { h with pvs := h.pvs.set a l } a) = l := by
  unfold Heap.pv
  simp [List.getD_eq_getElem?_getD, ha]

theorem pv_set_other {h : Heap R} {a b : ℕ} (hab : b ≠ a) (l : List (HPoly R)) :
    (Heap.pv { h with pvs := h.pvs.set a l } b) = h.pv b := by
  unfold Heap.pv
  simp only [List.getD_eq_getElem?_getD]
  rw [List.getElem?_set_ne (Ne.symm hab)]

theorem loop_spec (v : Var R) (a : ℕ) (rest : List (HPoly R)) : ∀ (pre : List (HPoly R)) (h : Heap R),
    a < h.pvs.length → h.pv a = pre ++ rest → LP.list.Valid h.exps (pre ++ rest) →
    (LP.list.addrs rest).Nodup → (∀ x ∈ LP.list.addrs pre, x ∉ LP.list.addrs rest) →
    LoopSpec v a pre rest h (pPolyVecLoop v a (List.range' pre.length rest.length) h) := by
  induction rest with
  | nil =>
    intro pre h ha hpv hval _ _
    have hpv' : h.pv a = pre := by rw [hpv, List.append_nil]
    refine ⟨?_, ?_, le_rfl, rfl, fun _ _ _ => rfl, fun _ _ => rfl, fun x hx => ?_⟩
    · show Except.ok ((h.pv a).map (HPoly.load h.exps)) = Except.ok (pre.map (HPoly.load h.exps) ++ [])
      rw [hpv', List.append_nil]
    · show (h.pv a).map (HPoly.load h.exps) = pre.map (HPoly.load h.exps) ++ []
      rw [hpv', List.append_nil]
    · have hx : x ∈ LP.list.addrs (h.pv a) := hx
      rw [hpv] at hx
      exact ⟨hval x hx, Or.inl hx⟩
  | cons p rest ih =>
    intro pre h ha hpv hval hnd hdis
    have hnd' : (LP.addrs p ++ LP.list.addrs rest).Nodup := hnd
    rw [List.nodup_append] at hnd'
    obtain ⟨hnp, hnr, hpr⟩ := hnd'
    have hpval : LP.Valid h.exps p := fun x hx => hval x (by
      rw [lp_list_append]
      exact List.mem_append_right _ (List.mem_append_left _ hx))
    have hrval : LP.list.Valid h.exps rest := fun x hx => hval x (by
      rw [lp_list_append]
      exact List.mem_append_right _ (List.mem_append_right _ hx))
    have hpreval : LP.list.Valid h.exps pre := fun x hx => hval x (by
      rw [lp_list_append]
      exact List.mem_append_left _ hx)
    have h1 := derivPoly_spec v p h hpval hnp
    have hlen1 := h1.len
    have hget : (h.pv a)[pre.length]? = some p := by
      rw [hpv, List.getElem?_append_right le_rfl]
      simp
    have hread : (PM.read (fun h : Heap R => match (h.pv a)[pre.length]? with
        | some p => .ok p
        | none => .error .index) h).1 = (.ok p : Go (HPoly R)) := by
      show (match (h.pv a)[pre.length]? with | some p => .ok p | none => .error .index : Go (HPoly R)) = _
      rw [hget]
    have hrun0 : pPolyVecLoop v a (List.range' pre.length (p :: rest).length) h =
        (pDerivPoly v p >>= fun q =>
          ((fun h => (.ok (), { h with pvs := h.pvs.set a ((h.pv a).set pre.length q) })) : PM (Heap R) Unit) >>= fun _ =>
            pPolyVecLoop v a (List.range' (pre.length + 1) rest.length)) h := by
      rw [List.length_cons, List.range'_succ]
      exact PM.bind_ok hread
    have hload_rest : LP.list.load (pDerivPoly v p h).2.exps rest = LP.list.load h.exps rest :=
      LP.list.congr fun x hx => h1.frame x (hrval x hx) fun h2 => hpr x h2 x hx rfl
    have hload_pre : LP.list.load (pDerivPoly v p h).2.exps pre = LP.list.load h.exps pre :=
      LP.list.congr fun x hx => h1.frame x (hpreval x hx) fun h2 =>
        hdis x hx (List.mem_append_left _ h2)
    have hpvs : (pDerivPoly v p h).2.pv a = pre ++ p :: rest := by
      unfold Heap.pv
      rw [h1.pvs]
      exact hpv
    cases ho : (pDerivPoly v p h).1 with
    | error e =>
      have hrun : pPolyVecLoop v a (List.range' pre.length (p :: rest).length) h =
          (.error e, (pDerivPoly v p h).2) := by rw [hrun0, PM.bind_error ho]
      have hd : (LP.load h.exps p).derivPoly v = .error e := by rw [← h1.value, ho, Go.map_error]
      have hsame : LP.load (pDerivPoly v p h).2.exps p = LP.load h.exps p := by
        rw [h1.self]
        exact derivPoly_error hd
      rw [hrun]
      refine ⟨?_, ?_, h1.len, by rw [h1.pvs], ?_, ?_, ?_⟩
      · show Except.error e = _
        rw [List.map_cons, List.mapM_cons]
        show _ = Except.map _ ((LP.load h.exps p).derivPoly v >>= _)
        rw [hd]
        rfl
      · show ((pDerivPoly v p h).2.pv a).map (HPoly.load (pDerivPoly v p h).2.exps) = _
        rw [hpvs, List.map_append, List.map_cons, List.map_cons, polyVecAfter]
        rw [show (HPoly.load h.exps p).derivPoly v = .error e from hd]
        simp only
        exact congrArg₂ (· ++ ·) hload_pre (congrArg₂ List.cons hsame hload_rest)
      · intro x hx hx2
        exact h1.frame x hx fun h3 => hx2 (List.mem_append_left _ h3)
      · intro b _
        unfold Heap.pv
        rw [h1.pvs]
      · intro x hx
        have hx : x ∈ LP.list.addrs ((pDerivPoly v p h).2.pv a) := hx
        rw [hpvs] at hx
        exact ⟨(hval x hx).trans_le hlen1, Or.inl hx⟩
    | ok q =>
      have hd : (LP.load h.exps p).derivPoly v = .ok (LP.load (pDerivPoly v p h).2.exps q) := by
        rw [← h1.value, ho, Go.map_ok]
      have hpvs1 := h1.pvs
      have hframe1 := h1.frame
      have hqa := h1.addrs q ho
      generalize hH : (pDerivPoly v p h).2 = H at *
      have hset : (H.pv a).set pre.length q = pre ++ q :: rest := by
        rw [hpvs]
        simp
      have hrun : pPolyVecLoop v a (List.range' pre.length (p :: rest).length) h =
          pPolyVecLoop v a (List.range' (pre ++ [q]).length rest.length)
            { H with pvs := H.pvs.set a (pre ++ q :: rest) } := by
        rw [hrun0, PM.bind_ok ho, hH]
        refine (PM.bind_ok (a := ()) rfl).trans ?_
        rw [List.length_append, List.length_singleton]
        show pPolyVecLoop v a _ { H with pvs := H.pvs.set a ((H.pv a).set pre.length q) } = _
        rw [hset]
      have haH : a < H.pvs.length := by rw [hpvs1]; exact ha
      have happ : pre ++ q :: rest = (pre ++ [q]) ++ rest := by simp
      have hval' : LP.list.Valid H.exps ((pre ++ [q]) ++ rest) := by
        intro x hx
        rw [lp_list_append, lp_list_append] at hx
        rcases List.mem_append.mp hx with hx | hx
        · rcases List.mem_append.mp hx with hx | hx
          · exact (hpreval x hx).trans_le hlen1
          · exact (hqa x (by simpa [Loader.list] using hx)).1
        · exact (hrval x hx).trans_le hlen1
      have h2 := ih (pre ++ [q]) { H with pvs := H.pvs.set a (pre ++ q :: rest) }
        (by simpa using haH) (by rw [pv_set_self haH, happ]) hval' hnr (by
          intro x hx hxr
          rw [lp_list_append] at hx
          rcases List.mem_append.mp hx with hx | hx
          · exact hdis x hx (List.mem_append_right _ hxr)
          · rcases (hqa x (by simpa [Loader.list] using hx)).2 with h3 | h3
            · exact hpr x h3 x hxr rfl
            · have := hrval x hxr
              omega)
      rw [hrun]
      generalize pPolyVecLoop v a (List.range' (pre ++ [q]).length rest.length)
            { H with pvs := H.pvs.set a (pre ++ q :: rest) } = r at h2 ⊢
      have hpreq : (pre ++ [q]).map (HPoly.load H.exps) = pre.map (HPoly.load h.exps) ++ [HPoly.load H.exps q] := by
        rw [List.map_append]
        exact congrArg (· ++ _) hload_pre
      have hrestq : rest.map (HPoly.load H.exps) = rest.map (HPoly.load h.exps) := hload_rest
      have hd' : (HPoly.load h.exps p).derivPoly v = .ok (HPoly.load H.exps q) := hd
      have hv2 := h2.value
      have hs2 := h2.self
      simp only at hv2 hs2
      rw [hpreq, hrestq] at hv2 hs2
      refine ⟨?_, ?_, hlen1.trans h2.len, ?_, ?_, ?_, ?_⟩
      · rw [hv2, List.map_cons, List.mapM_cons, hd', Go.ok_bind]
        cases (rest.map (HPoly.load h.exps)).mapM (·.derivPoly v) with
        | error e => rfl
        | ok ds => simp [Go.ok_bind, Go.map_ok, Go.pure_eq]
      · rw [hs2, List.map_cons, polyVecAfter, hd']
        simp
      · rw [h2.plen]
        simp [hpvs1]
      · intro x hx hx2
        rw [h2.frame x (hx.trans_le hlen1) fun h3 => hx2 (List.mem_append_right _ h3)]
        exact hframe1 x hx fun h3 => hx2 (List.mem_append_left _ h3)
      · intro b hb
        rw [h2.others b hb, pv_set_other hb]
        unfold Heap.pv
        rw [hpvs1]
      · intro x hx
        have h3 := h2.addrs x hx
        refine ⟨h3.1, ?_⟩
        rcases h3.2 with h4 | h4
        · rw [lp_list_append, lp_list_append] at h4
          rcases List.mem_append.mp h4 with h4 | h4
          · rcases List.mem_append.mp h4 with h4 | h4
            · left
              rw [lp_list_append]
              exact List.mem_append_left _ h4
            · rcases (hqa x (by simpa [Loader.list] using h4)).2 with h5 | h5
              · left
                rw [lp_list_append]
                exact List.mem_append_right _ (List.mem_append_left _ h5)
              · exact Or.inr h5
          · left
            rw [lp_list_append]
            exact List.mem_append_right _ (List.mem_append_right _ h4)
        · exact Or.inr (hlen1.trans h4)

/-! ## C10: one call -/

/-- All slices of the object exist. -/
def HObj.Valid (h : Heap R) (o : HObj R) : Prop :=
  (∀ x ∈ o.addrs h.pvs, x < h.exps.length) ∧ ∀ a, o = .pv a → a < h.pvs.length

/-- No slice of the one is a slice of the other. -/
def HObj.Apart (h : Heap R) (o o2 : HObj R) : Prop :=
  (∀ x ∈ o2.addrs h.pvs, x ∉ o.addrs h.pvs) ∧ ∀ a, o = .pv a → o2 ≠ .pv a

theorem notPV_load {o : HObj R} (ho : o.NotPV) (h : ExpHeap) (pvs pvs' : List (List (HPoly R))) :
    o.load ⟨h, pvs⟩ = o.load ⟨h, pvs'⟩ := by
  cases o <;> first | rfl | cases ho

theorem notPV_addrs {o : HObj R} (ho : o.NotPV) (pvs pvs' : List (List (HPoly R))) :
    o.addrs pvs = o.addrs pvs' := by
  cases o <;> first | rfl | cases ho

theorem expr_pv_eq (v : Var R) (l : List (Poly R)) : Expr.derivative (.v (.p l)) v =
    (l.mapM fun p : Poly R => p.derivPoly v).map (fun ds => .v (.p ds)) := by
  show ((Vec.derivative (.p l) v) >>= fun x => pure (Expr.v x)) = _
  unfold Vec.derivative
  simp only
  cases l.mapM (·.derivPoly v) <;> rfl

theorem pv_run (v : Var R) (a : ℕ) (h : Heap R) : (HObj.pv a).derivative v h =
    ((pPolyVecLoop v a (List.range' 0 (h.pv a).length) h).1.map (fun _ => .pv a),
      (pPolyVecLoop v a (List.range' 0 (h.pv a).length) h).2) := by
  show (pPolyVecDerivative v a) h = _
  unfold pPolyVecDerivative
  refine (PM.bind_ok (x := PM.read fun h : Heap R => .ok (h.pv a).length) (a := (h.pv a).length) rfl).trans ?_
  rw [List.range_eq_range']
  show (pPolyVecLoop v a (List.range' 0 (h.pv a).length) >>= fun _ => pure (HObj.pv a)) h = _
  cases ho : (pPolyVecLoop v a (List.range' 0 (h.pv a).length) h).1 with
  | error e => rw [PM.bind_error ho]; rfl
  | ok u => rw [PM.bind_ok ho]; rfl

theorem pv_loop (v : Var R) {a : ℕ} {h : Heap R} (ha : (HObj.pv a).Valid h)
    (hnd : ((HObj.pv a).addrs h.pvs).Nodup) :
    LoopSpec v a [] (h.pv a) h (pPolyVecLoop v a (List.range' 0 (h.pv a).length) h) :=
  loop_spec v a (h.pv a) [] h (ha.2 a rfl) rfl ha.1 hnd fun x hx => by cases hx

/-- C10: what a call of `DerivativeWrt` returns, for every kind of expression, every memory and every
variable: the value of the derivative of what the receiver stands for at the moment, or its panic. -/
theorem heapAll_value (v : Var R) {o : HObj R} {h : Heap R} (ha : o.Valid h) (hnd : (o.addrs h.pvs).Nodup) :
    (o.derivative v h).1.map (HObj.load (o.derivative v h).2) = (o.load h).derivative v := by
  by_cases hpv : o.NotPV
  · have h1 := obj_spec v o h h.pvs hpv ha.1 hnd
    refine Eq.trans ?_ h1.value
    rw [← h1.pvs]
    rfl
  · cases o with
    | pv a =>
      have h1 := pv_loop v ha hnd
      rw [pv_run]
      show _ = Expr.derivative (.v (.p _)) v
      rw [expr_pv_eq]
      have h2 := h1.value
      simp only [List.map_nil, List.nil_append] at h2
      revert h2
      generalize pPolyVecLoop v a (List.range' 0 (h.pv a).length) h = r
      intro h2
      cases hr : r.1 with
      | error e =>
        rw [hr, Go.map_error] at h2
        cases hm : ((h.pv a).map (HPoly.load h.exps)).mapM (·.derivPoly v) with
        | error e' => rw [hm] at h2; cases h2; rfl
        | ok ds => rw [hm] at h2; cases h2
      | ok u =>
        rw [hr, Go.map_ok] at h2
        cases hm : ((h.pv a).map (HPoly.load h.exps)).mapM (·.derivPoly v) with
        | error e' => rw [hm] at h2; cases h2
        | ok ds =>
          rw [hm, Go.map_ok] at h2
          cases h2
          rfl
    | _ => exact absurd trivial hpv

/-- C10: what the receiver stands for after the call, also if the call panics. -/
theorem heapAll_self (v : Var R) {o : HObj R} {h : Heap R} (ha : o.Valid h) (hnd : (o.addrs h.pvs).Nodup) :
    o.load (o.derivative v h).2 = (o.load h).afterCall v := by
  by_cases hpv : o.NotPV
  · have h1 := obj_spec v o h h.pvs hpv ha.1 hnd
    refine Eq.trans ?_ h1.self
    exact notPV_load hpv _ _ _
  · cases o with
    | pv a =>
      have h1 := pv_loop v ha hnd
      rw [pv_run]
      exact congrArg (fun x => Expr.v (.p x)) h1.self
    | _ => exact absurd trivial hpv

/-- C10: a call changes no expression that has no slice in common with the receiver, also if it
panics. -/
theorem heapAll_others (v : Var R) {o o2 : HObj R} {h : Heap R} (ha : o.Valid h)
    (hnd : (o.addrs h.pvs).Nodup) (ha2 : o2.Valid h) (hd : o.Apart h o2) :
    o2.load (o.derivative v h).2 = o2.load h := by
  by_cases hpv : o.NotPV
  · have h1 := obj_spec v o h h.pvs hpv ha.1 hnd
    have h2 : o2.load (o.derivative v h).2 = o2.load ⟨(o.derivative v h).2.exps, h.pvs⟩ := by
      rw [← h1.pvs]
    rw [h2]
    exact (LO h.pvs).congr fun x hx => h1.frame x (ha2.1 x hx) (hd.1 x hx)
  · cases o with
    | pv a =>
      have h1 := pv_loop v ha hnd
      rw [pv_run]
      simp only
      revert h1
      generalize pPolyVecLoop v a (List.range' 0 (h.pv a).length) h = r
      intro h1
      have hfr : ∀ x ∈ (LO h.pvs).addrs o2, r.2.exps.getD x [] = h.exps.getD x [] :=
        fun x hx => h1.frame x (ha2.1 x hx) (hd.1 x hx)
      by_cases hpv2 : o2.NotPV
      · have h2 : o2.load r.2 = o2.load ⟨r.2.exps, h.pvs⟩ := notPV_load hpv2 _ _ _
        rw [h2]
        exact (LO h.pvs).congr hfr
      · cases o2 with
        | pv b =>
          have hba : b ≠ a := fun hb => hd.2 a rfl (by rw [hb])
          show Expr.v (.p ((r.2.pv b).map (HPoly.load r.2.exps))) = Expr.v (.p ((h.pv b).map (HPoly.load h.exps)))
          rw [h1.others b hba]
          exact congrArg (fun x => Expr.v (.p x)) (LP.list.congr hfr)
        | _ => exact absurd trivial hpv2
    | _ => exact absurd trivial hpv

/-! ## Panics -/

/-- Neither a `PolynomialVector` nor a `PolynomialMatrix`. -/
def Expr.NotPolyArray : Expr R → Prop
  | .v (.p _) => False
  | .m (.p _) => False
  | _ => True

theorem afterCall_panic {v : Var R} {e : Expr R} (hp : e.NotPolyArray) {err : Err}
    (h : e.derivative v = .error err) : e.afterCall v = e := by
  cases e with
  | s a =>
    show Expr.s (a.afterCall v) = _
    have h1 : (a.derivative v >>= fun x => pure (Expr.s x)) = .error err := h
    unfold Scalar.afterCall
    cases hd : a.derivative v with
    | error e => rfl
    | ok x => rw [hd] at h1; cases h1
  | v a =>
    have h1 : (a.derivative v >>= fun x => pure (Expr.v x)) = .error err := h
    cases a with
    | k l => rfl
    | v l => rfl
    | m l =>
      unfold Expr.afterCall
      simp only
      cases hd : Vec.derivative (.m l) v with
      | error e => rfl
      | ok x => rw [hd] at h1; cases h1
    | p l => cases hp
  | m a =>
    have h1 : (a.derivative v >>= fun x => pure (Expr.m x)) = .error err := h
    cases a with
    | k l => rfl
    | v l => rfl
    | m l =>
      unfold Expr.afterCall
      simp only
      cases hd : Mat.derivative (.m l) v with
      | error e => rfl
      | ok x => rw [hd] at h1; cases h1
    | p l => cases hp

/-- C10: a call that panics changes nothing, unless the receiver is a `PolynomialVector` or a
`PolynomialMatrix`. -/
theorem heapAll_panic (v : Var R) {o : HObj R} {h : Heap R} (ha : o.Valid h) (hnd : (o.addrs h.pvs).Nodup)
    (hp : (o.load h).NotPolyArray) {err : Err} (he : (o.derivative v h).1 = .error err) :
    o.load (o.derivative v h).2 = o.load h := by
  rw [heapAll_self v ha hnd]
  have h1 := heapAll_value v ha hnd
  rw [he, Go.map_error] at h1
  exact afterCall_panic hp h1.symm

/-! ## When the receiver is unchanged -/

/-- No monomial of the expression contains `v` to a power above one. -/
def Expr.LinearIn (v : Var R) (e : Expr R) : Prop := e.All (Scalar.LinearIn v)

theorem mono_steady {m : Mono R} (hm : m.Canon) {v : Var R} (h : m.degs v.id ≤ 1) : m.afterCall v = m := by
  unfold Mono.afterCall
  rw [Mono.afterDerivative_small hm h]
  cases m.derivative v <;> rfl

theorem poly_steady {p : Poly R} (hp : p.Canon) {v : Var R} (h : ∀ m ∈ p.monos, m.degs v.id ≤ 1) :
    p.afterCall v = p := by
  unfold Poly.afterCall
  have h4 : p.monos.map (·.afterDerivative v) = p.monos.map id :=
    List.map_inj_left.mpr fun m hm => Mono.afterDerivative_small (hp.all m hm) (h m hm)
  rw [List.map_id] at h4
  rw [h4]
  cases p.derivative v <;> rfl

theorem scalar_steady {e : Scalar R} (he : e.Canon) {v : Var R} (h : e.LinearIn v) : e.afterCall v = e := by
  cases e with
  | k c => rfl
  | var w => exact scalar_afterCall_var v w
  | mono m => rw [scalar_afterCall_mono, mono_steady he h]
  | poly p => rw [scalar_afterCall_poly, poly_steady he h]

/-- Expressions that contain `v` at most to the first power are left alone. -/
theorem steady_of_linear {v : Var R} {o : HObj R} {h : Heap R} (hpv : o.NotPV) (hc : (o.load h).Canon)
    (hl : (o.load h).LinearIn v) : o.Steady v h.exps := by
  cases o with
  | s e =>
    have hg : [e.load h.exps] ∈ (HObj.load h (.s e)).grid := by simp [HObj.load, Expr.grid]
    exact scalar_steady (hc _ hg _ (by simp)) (hl _ hg _ (by simp))
  | kv l => exact trivial
  | vv l => exact trivial
  | mv l =>
    intro m hm
    have hg : [Scalar.mono m] ∈ (HObj.load h (.mv l)).grid :=
      List.mem_map.mpr ⟨.mono m, List.mem_map.mpr ⟨m, hm, rfl⟩, rfl⟩
    exact mono_steady (hc _ hg (.mono m) (by simp)) (hl _ hg (.mono m) (by simp))
  | pv a => cases hpv
  | km l => exact trivial
  | vm l => exact trivial
  | mm rows =>
    intro row hrow m hm
    have hg : row.map Scalar.mono ∈ (HObj.load h (.mm rows)).grid := List.mem_map.mpr ⟨row, hrow, rfl⟩
    exact mono_steady (hc _ hg _ (List.mem_map_of_mem hm)) (hl _ hg _ (List.mem_map_of_mem hm))
  | pm rows =>
    intro row hrow p hp
    have hg : row.map Scalar.poly ∈ (HObj.load h (.pm rows)).grid := List.mem_map.mpr ⟨row, hrow, rfl⟩
    exact poly_steady (hc _ hg _ (List.mem_map_of_mem hp)) (hl _ hg _ (List.mem_map_of_mem hp))

/-! ## Programs -/

/-- The outcomes of the calls as the caller sees them when they return. -/
def PStore.observe (s : PStore R) : List (ℕ × Var R) → List (Go (Expr R)) × PStore R
  | [] => ([], s)
  | c :: cs =>
    let r := s.call c
    let rest := r.2.observe cs
    (r.1.map (HObj.load r.2.heap) :: rest.1, rest.2)

theorem observe_store (s : PStore R) (cs : List (ℕ × Var R)) : (s.observe cs).2 = (s.run cs).2 := by
  induction cs generalizing s with
  | nil => rfl
  | cons c cs ih => exact ih _

theorem call_some {s : PStore R} {c : ℕ × Var R} {o : HObj R} (ho : s.objs[c.1]? = some o) :
    s.call c = ((o.derivative c.2 s.heap).1, ⟨match (o.derivative c.2 s.heap).1 with
      | .ok r => s.objs ++ [r]
      | .error _ => s.objs, (o.derivative c.2 s.heap).2⟩) := by
  unfold PStore.call
  rw [ho]
  simp only
  generalize o.derivative c.2 s.heap = r
  obtain ⟨r1, r2⟩ := r
  cases r1 <;> rfl

/-- C10: a program that differentiates its expressions by variables they contain at most to the first
power, whatever slices they share and whatever calls panic: all expressions keep their value, and every
call returns (or panics with) the derivative of the original expression. -/
theorem heapAll_gradient_partial {s : PStore R} {cs : List (ℕ × Var R)}
    (hs : ∀ o ∈ s.objs, o.Valid s.heap)
    (hcs : ∀ c ∈ cs, ∃ o, s.objs[c.1]? = some o ∧ o.Steady c.2 s.heap.exps) :
    s.objs <+: (s.run cs).2.objs ∧
      (∀ o ∈ s.objs, o.load (s.run cs).2.heap = o.load s.heap) ∧
      List.Forall₂ (fun c r => ∃ o, s.objs[c.1]? = some o ∧
        r.map (HObj.load (s.run cs).2.heap) = (o.load s.heap).derivative c.2) cs (s.run cs).1 := by
  -- the memory grows, and the backing arrays stay
  have key : ∀ (cs : List (ℕ × Var R)) (t : PStore R), s.objs <+: t.objs → s.heap.exps <+: t.heap.exps →
      t.heap.pvs = s.heap.pvs →
      (∀ c ∈ cs, ∃ o, s.objs[c.1]? = some o ∧ o.Steady c.2 s.heap.exps) →
      s.objs <+: (t.run cs).2.objs ∧ t.heap.exps <+: (t.run cs).2.heap.exps ∧
        (t.run cs).2.heap.pvs = s.heap.pvs ∧
        List.Forall₂ (fun c r => ∃ o, s.objs[c.1]? = some o ∧
          r.map (HObj.load (t.run cs).2.heap) = (o.load s.heap).derivative c.2) cs (t.run cs).1 := by
    intro cs
    induction cs with
    | nil => intro t ht1 ht2 ht3 _; exact ⟨ht1, List.prefix_rfl, ht3, .nil⟩
    | cons c cs ih =>
      intro t ht1 ht2 ht3 hcs
      obtain ⟨o, ho, hst⟩ := hcs c (by simp)
      have hmem : o ∈ s.objs := List.mem_of_getElem? ho
      have hval : (LO s.heap.pvs).Valid s.heap.exps o := (hs o hmem).1
      have hot : t.objs[c.1]? = some o := by
        obtain ⟨rest, hrest⟩ := ht1
        rw [← hrest, List.getElem?_append_left]
        · exact ho
        · rw [List.getElem?_eq_some_iff] at ho
          exact ho.1
      have hst' : o.Steady c.2 t.heap.exps := by
        have hpre : ∀ {α A : Type} (L : Loader α A) {a : α}, L.Valid s.heap.exps a →
            L.load t.heap.exps a = L.load s.heap.exps a := fun L _ ha => L.load_prefix ha ht2
        cases o with
        | s e =>
          have := hpre LS (a := e) hval
          show (LS.load t.heap.exps e).afterCall c.2 = LS.load t.heap.exps e
          rw [this]
          exact hst
        | mv l =>
          have := hpre LM.list (a := l) hval
          show ∀ m ∈ LM.list.load t.heap.exps l, m.afterCall c.2 = m
          rw [this]
          exact hst
        | mm l =>
          have := hpre LM.list.list (a := l) hval
          show ∀ row ∈ LM.list.list.load t.heap.exps l, ∀ m ∈ row, m.afterCall c.2 = m
          rw [this]
          exact hst
        | pm l =>
          have := hpre LP.list.list (a := l) hval
          show ∀ row ∈ LP.list.list.load t.heap.exps l, ∀ m ∈ row, m.afterCall c.2 = m
          rw [this]
          exact hst
        | pv a => cases hst
        | _ => exact trivial
      have h1 := obj_safe c.2 o t.heap s.heap.pvs (hval.prefix ht2) hst'
      have hcall := call_some (s := t) (c := c) hot
      have hrun : t.run (c :: cs) = ((t.call c).1 :: ((t.call c).2.run cs).1, ((t.call c).2.run cs).2) := rfl
      have hobjs : s.objs <+: (t.call c).2.objs := by
        rw [hcall]
        simp only
        split
        · exact ht1.trans (List.prefix_append _ _)
        · exact ht1
      have hheap : (t.call c).2.heap = (o.derivative c.2 t.heap).2 := by rw [hcall]
      have hpvs : (t.call c).2.heap.pvs = s.heap.pvs := by rw [hheap, h1.pvs, ht3]
      have hexps : t.heap.exps <+: (t.call c).2.heap.exps := by rw [hheap]; exact h1.ext
      obtain ⟨i1, i2, i3, i4⟩ := ih (t.call c).2 hobjs (ht2.trans hexps) hpvs
        fun c' hc' => hcs c' (List.mem_cons_of_mem _ hc')
      rw [hrun]
      refine ⟨i1, hexps.trans i2, i3, .cons ⟨o, ho, ?_⟩ i4⟩
      have hv := h1.value
      have hl : (LO s.heap.pvs).load t.heap.exps o = o.load s.heap := (LO s.heap.pvs).load_prefix hval ht2
      rw [hl] at hv
      refine Eq.trans ?_ hv
      have hc1 : (t.call c).1 = (o.derivative c.2 t.heap).1 := by rw [hcall]
      rw [hc1]
      cases hr : (o.derivative c.2 t.heap).1 with
      | error e => rfl
      | ok b =>
        rw [Go.map_ok, Go.map_ok]
        congr 1
        have hb : (LO s.heap.pvs).Valid (o.derivative c.2 t.heap).2.exps b := fun x hx => (h1.addrs b hr x hx).1
        have hH : ((t.call c).2.run cs).2.heap = ⟨((t.call c).2.run cs).2.heap.exps, s.heap.pvs⟩ := by rw [← i3]
        rw [hH]
        refine (LO s.heap.pvs).load_prefix hb ?_
        rw [← hheap]
        exact i2
  obtain ⟨h1, h2, h3, h4⟩ := key cs s List.prefix_rfl List.prefix_rfl rfl hcs
  refine ⟨h1, fun o ho => ?_, h4⟩
  have hH : (s.run cs).2.heap = ⟨(s.run cs).2.heap.exps, s.heap.pvs⟩ := by rw [← h3]
  rw [hH]
  exact (LO s.heap.pvs).load_prefix (hs o ho).1 h2

/-- What the expressions stand for after a sequence of calls, and the outcomes of the calls, computed on
values only. -/
def valRun (es : List (Expr R)) : List (ℕ × Var R) → List (Go (Expr R)) × List (Expr R)
  | [] => ([], es)
  | c :: cs => match es[c.1]? with
    | none => (.error .index :: (valRun es cs).1, (valRun es cs).2)
    | some e =>
      let rest := valRun (es.set c.1 (e.afterCall c.2)) cs
      (e.derivative c.2 :: rest.1, rest.2)

/-- C10, exact: expressions without common slices (no `PolynomialVector`s), any sequence of calls on
them, panics recovered.  The outcomes and the final values are those computed on values, where every call
replaces its receiver by `Expr.afterCall`. -/
theorem heapAll_run {s : PStore R} {cs : List (ℕ × Var R)}
    (hs : ∀ o ∈ s.objs, o.Valid s.heap ∧ o.NotPV) (hnd : (s.objs.flatMap (HObj.addrs s.heap.pvs)).Nodup)
    (hcs : ∀ c ∈ cs, c.1 < s.objs.length) :
    (s.observe cs).1 = (valRun (s.objs.map (HObj.load s.heap)) cs).1 ∧
      s.objs.map (HObj.load (s.observe cs).2.heap) = (valRun (s.objs.map (HObj.load s.heap)) cs).2 := by
  have key : ∀ (cs : List (ℕ × Var R)) (t : PStore R), s.objs <+: t.objs →
      s.heap.exps.length ≤ t.heap.exps.length → t.heap.pvs = s.heap.pvs → (∀ c ∈ cs, c.1 < s.objs.length) →
      (t.observe cs).1 = (valRun (s.objs.map (HObj.load t.heap)) cs).1 ∧
        s.objs.map (HObj.load (t.observe cs).2.heap) = (valRun (s.objs.map (HObj.load t.heap)) cs).2 := by
    intro cs
    induction cs with
    | nil => intro t _ _ _ _; exact ⟨rfl, rfl⟩
    | cons c cs ih =>
      intro t ht1 ht2 ht3 hcs
      have hc : c.1 < s.objs.length := hcs c (by simp)
      obtain ⟨o, ho⟩ : ∃ o, s.objs[c.1]? = some o := ⟨_, List.getElem?_eq_getElem hc⟩
      have hmem : o ∈ s.objs := List.mem_of_getElem? ho
      have hot : t.objs[c.1]? = some o := by
        obtain ⟨rest, hrest⟩ := ht1
        rw [← hrest, List.getElem?_append_left hc]
        exact ho
      obtain ⟨⟨hval, -⟩, hpv⟩ := hs o hmem
      have hsub : (o.addrs s.heap.pvs).Nodup :=
        (List.nodup_flatMap.mp hnd).1 o hmem
      have h1 := obj_spec c.2 o t.heap s.heap.pvs hpv (fun x hx => (hval x hx).trans_le ht2) hsub
      have hcall := call_some (s := t) (c := c) hot
      have hheap : (t.call c).2.heap = (o.derivative c.2 t.heap).2 := by rw [hcall]
      have hobjs : s.objs <+: (t.call c).2.objs := by
        rw [hcall]
        simp only
        split
        · exact ht1.trans (List.prefix_append _ _)
        · exact ht1
      have hpvs : (t.call c).2.heap.pvs = s.heap.pvs := by rw [hheap, h1.pvs, ht3]
      obtain ⟨i1, i2⟩ := ih (t.call c).2 hobjs (by rw [hheap]; exact ht2.trans h1.len) hpvs
        fun c' hc' => hcs c' (List.mem_cons_of_mem _ hc')
      have hH : ∀ o2 : HObj R, o2.load (t.call c).2.heap = (LO s.heap.pvs).load (t.call c).2.heap.exps o2 := by
        intro o2
        show _ = o2.load ⟨(t.call c).2.heap.exps, s.heap.pvs⟩
        rw [← hpvs]
      have hT : ∀ o2 : HObj R, o2.load t.heap = (LO s.heap.pvs).load t.heap.exps o2 := by
        intro o2
        show _ = o2.load ⟨t.heap.exps, s.heap.pvs⟩
        rw [← ht3]
      have hstate : s.objs.map (HObj.load (t.call c).2.heap) =
          (s.objs.map (HObj.load t.heap)).set c.1 ((o.load t.heap).afterCall c.2) := by
        apply List.ext_getElem?
        intro i
        rw [List.getElem?_set]
        by_cases hi : c.1 = i
        · subst hi
          rw [if_pos rfl, if_pos (by simpa using hc), List.getElem?_map, ho, Option.map_some, hH, hheap, h1.self, hT]
        · rw [if_neg hi, List.getElem?_map, List.getElem?_map]
          cases h2 : s.objs[i]? with
          | none => rfl
          | some o2 =>
            rw [Option.map_some, Option.map_some, hH, hT, hheap]
            congr 1
            refine (LO s.heap.pvs).congr fun x hx => h1.frame x
              ((hs o2 (List.mem_of_getElem? h2)).1.1 x hx |>.trans_le ht2) fun hx2 => ?_
            have hpw := (List.nodup_flatMap.mp hnd).2
            rw [List.pairwise_iff_getElem] at hpw
            obtain ⟨hi2, rfl⟩ := List.getElem?_eq_some_iff.mp h2
            obtain ⟨hc2, rfl⟩ := List.getElem?_eq_some_iff.mp ho
            rcases Nat.lt_or_gt_of_ne hi with hlt | hlt
            · exact hpw _ _ hc2 hi2 hlt hx2 hx
            · exact hpw _ _ hi2 hc2 hlt hx hx2
      have hget : (s.objs.map (HObj.load t.heap))[c.1]? = some (o.load t.heap) := by
        rw [List.getElem?_map, ho]
        rfl
      have hout : (t.call c).1.map (HObj.load (t.call c).2.heap) = (o.load t.heap).derivative c.2 := by
        have hv := h1.value
        rw [hT o, ← hv, ← hheap]
        have hc1 : (t.call c).1 = (o.derivative c.2 t.heap).1 := by rw [hcall]
        rw [hc1]
        congr 1
        funext b
        exact hH b
      have hobs : t.observe (c :: cs) = ((t.call c).1.map (HObj.load (t.call c).2.heap) ::
          ((t.call c).2.observe cs).1, ((t.call c).2.observe cs).2) := rfl
      rw [hobs]
      unfold valRun
      rw [hget]
      simp only
      rw [hstate] at i1 i2
      exact ⟨by rw [hout, i1], i2⟩
  exact key cs s List.prefix_rfl le_rfl rfl hcs

/-! ## Counterexamples -/

/-- `[x^2 + x, y]` as a `PolynomialVector`. -/
def wPV : Heap ℚ := ⟨[[2], [1], [1]], [[⟨[⟨1, 0, [wx]⟩, ⟨1, 1, [wx]⟩]⟩, ⟨[⟨1, 2, [wy]⟩]⟩]]⟩

/-- A recovered panic leaves a `PolynomialVector` half differentiated: `[x^2 + x, y]` becomes
`[2*x + 1, y]`. -/
theorem heapAll_panic_polyVec_false :
    ((HObj.pv 0).derivative wx wPV).1 = .error .typeAssert ∧
    (HObj.pv 0).load wPV = .v (.p [⟨[wm1 1 0 2, wm1 1 0 1]⟩, ⟨[wm1 1 1 1]⟩]) ∧
    (HObj.pv 0).load ((HObj.pv 0).derivative wx wPV).2 = .v (.p [⟨[wm1 2 0 1, wm0 1]⟩, ⟨[wm1 1 1 1]⟩]) := by
  decide +kernel

/-- `[[x^2 + x, y]]` as a `PolynomialMatrix`. -/
def wPM : HObj ℚ := .pm [[⟨[⟨1, 0, [wx]⟩, ⟨1, 1, [wx]⟩]⟩, ⟨[⟨1, 2, [wy]⟩]⟩]]

/-- A recovered panic leaves a `PolynomialMatrix` changed: `[[x^2 + x, y]]` becomes `[[x + x, y]]`. -/
theorem heapAll_panic_polyMat_false :
    (wPM.derivative wx ⟨[[2], [1], [1]], []⟩).1 = .error .typeAssert ∧
    wPM.load ⟨[[2], [1], [1]], []⟩ = .m (.p [[⟨[wm1 1 0 2, wm1 1 0 1]⟩, ⟨[wm1 1 1 1]⟩]]) ∧
    wPM.load (wPM.derivative wx ⟨[[2], [1], [1]], []⟩).2 =
      .m (.p [[⟨[wm1 1 0 1, wm1 1 0 1]⟩, ⟨[wm1 1 1 1]⟩]]) := by
  decide +kernel

/-- `MonomialVector.DerivativeWrt` decrements twice: `[x^3]` becomes `[x]`, and `[x^3]'` is returned as
`[2*x]`. -/
theorem heapAll_monoVec_receiver :
    ((HObj.mv [(⟨1, 0, [wx]⟩ : HMono ℚ)]).derivative wx ⟨[[3]], []⟩).1.map
      (HObj.load ((HObj.mv [(⟨1, 0, [wx]⟩ : HMono ℚ)]).derivative wx ⟨[[3]], []⟩).2) =
        .ok (.v (.m [wm1 2 0 1])) ∧
    (HObj.mv [(⟨1, 0, [wx]⟩ : HMono ℚ)]).load
      ((HObj.mv [(⟨1, 0, [wx]⟩ : HMono ℚ)]).derivative wx ⟨[[3]], []⟩).2 = .v (.m [wm1 1 0 1]) := by
  decide +kernel

/-- `[[x^2, y]]` as a `MonomialMatrix`. -/
def wMM : HObj ℚ := .mm [[⟨1, 0, [wx]⟩, ⟨1, 1, [wy]⟩]]

/-- Differentiating the `MonomialMatrix` `[[x^2, y]]` by `x` twice: the receiver becomes `[[x, y]]`, and
the second call returns `[[1, 0]]` instead of `[[2*x, 0]]`. -/
theorem heapAll_monoMat_false :
    ((⟨[wMM], ⟨[[2], [1]], []⟩⟩ : PStore ℚ).observe [(0, wx), (0, wx)]).1 =
      [.ok (.m (.m [[wm1 2 0 1, wm0 0]])), .ok (.m (.k [[1, 0]]))] ∧
    wMM.load ((⟨[wMM], ⟨[[2], [1]], []⟩⟩ : PStore ℚ).observe [(0, wx), (0, wx)]).2.heap =
      .m (.m [[wm1 1 0 1, wm1 1 1 1]]) := by
  decide +kernel

/-! ## The hypotheses can be met -/

/-- A variable whose bounds are in the wrong order. -/
def wxBad : Var ℚ := { wx with lower := 1, upper := 0 }

/-- `[[x*y, y]]` as a `MonomialMatrix`, `x*y` with the same slice as a scalar, `x` with an exponent slice
that is too long, and `[[x + y, y]]` as a `PolynomialMatrix`. -/
def wPS : PStore ℚ := ⟨[.mm [[⟨1, 0, [wx, wy]⟩, ⟨1, 1, [wy]⟩]], .s (.mono ⟨3, 0, [wx, wy]⟩),
  .s (.mono ⟨1, 0, [wx]⟩), .pm [[⟨[⟨1, 2, [wx]⟩, ⟨1, 1, [wy]⟩]⟩, ⟨[⟨1, 1, [wy]⟩]⟩]]], ⟨[[1, 1], [1], [1]], []⟩⟩

example : (∀ o ∈ wPS.objs, o.load (wPS.run [(0, wx), (2, wx), (3, wx), (1, wy)]).2.heap = o.load wPS.heap) ∧
    List.Forall₂ (fun c r => ∃ o, wPS.objs[c.1]? = some o ∧
      r.map (HObj.load (wPS.run [(0, wx), (2, wx), (3, wx), (1, wy)]).2.heap) =
        (o.load wPS.heap).derivative c.2) [(0, wx), (2, wx), (3, wx), (1, wy)]
      (wPS.run [(0, wx), (2, wx), (3, wx), (1, wy)]).1 := by
  refine (heapAll_gradient_partial ?_ ?_).2
  · intro o ho
    simp only [wPS, List.mem_cons, List.not_mem_nil, or_false] at ho
    rcases ho with rfl | rfl | rfl | rfl <;> exact ⟨by decide, fun a ha => by cases ha⟩
  · intro c hc
    simp only [List.mem_cons, List.not_mem_nil, or_false] at hc
    rcases hc with rfl | rfl | rfl | rfl
    · exact ⟨_, rfl, by simp only [HObj.Steady]; decide +kernel⟩
    · exact ⟨_, rfl, by simp only [HObj.Steady]; decide +kernel⟩
    · exact ⟨_, rfl, by simp only [HObj.Steady]; decide +kernel⟩
    · exact ⟨_, rfl, by simp only [HObj.Steady]; decide +kernel⟩

/-- Two of these calls return and two panic. -/
example : (wPS.observe [(0, wx), (2, wx), (3, wx), (1, wy)]).1 =
    [.ok (.m (.m [[wm1 1 1 1, wm0 0]])), .error .check, .error .typeAssert, .ok (.s (.mono (wm1 3 0 1)))] := by
  decide +kernel

example : ((⟨[wMM], ⟨[[2], [1]], []⟩⟩ : PStore ℚ).observe [(0, wx), (0, wxBad), (0, wx)]).1 =
    (valRun [.m (.m [[wm1 1 0 2, wm1 1 1 1]])] [(0, wx), (0, wxBad), (0, wx)]).1 :=
  (heapAll_run (s := ⟨[wMM], ⟨[[2], [1]], []⟩⟩) (by
    simp only [List.mem_singleton, forall_eq]
    exact ⟨⟨by decide, fun a ha => by cases ha⟩, trivial⟩) (by decide) (by decide)).1

example : (HObj.pv 0).load ((HObj.pv 0).derivative wx wPV).2 = ((HObj.pv 0).load wPV).afterCall wx :=
  heapAll_self wx ⟨by decide, fun a ha => by cases ha; decide⟩ (by decide)

example : wPM.load ((HObj.pv 0).derivative wx ⟨[[2], [1], [1], [2]], [[⟨[⟨1, 3, [wx]⟩]⟩]]⟩).2 =
    wPM.load ⟨[[2], [1], [1], [2]], [[⟨[⟨1, 3, [wx]⟩]⟩]]⟩ :=
  heapAll_others wx ⟨by decide, fun a ha => by cases ha; decide⟩ (by decide) ⟨by decide, fun a ha => by cases ha⟩
    ⟨by decide, fun a _ ha => by cases ha⟩

/-- A malformed variable: the `MonomialMatrix` is unchanged. -/
example : wMM.load (wMM.derivative wxBad ⟨[[2], [1]], []⟩).2 = wMM.load ⟨[[2], [1]], []⟩ :=
  heapAll_panic wxBad (err := .check) ⟨by decide, fun a ha => by cases ha⟩ (by decide) trivial (by decide +kernel)

example : wMM.Steady wy ([[2], [1]] : ExpHeap) :=
  steady_of_linear (h := ⟨[[2], [1]], []⟩) trivial
    (Expr.okDeg_canon 2 (e := .m (.m [[wm1 1 0 2, wm1 1 1 1]])) (by decide +kernel)) (by
      intro row hrow a ha
      have h1 : row = [.mono (wm1 1 0 2), .mono (wm1 1 1 1)] := by
        have h2 : row ∈ [[Scalar.mono (wm1 1 0 2), Scalar.mono (wm1 1 1 1)]] := hrow
        simpa using h2
      subst h1
      simp only [List.mem_cons, List.not_mem_nil, or_false] at ha
      rcases ha with rfl | rfl
      · simp [Scalar.LinearIn, wm1_degs, wy, wv]
      · simp [Scalar.LinearIn, wm1_degs, wy, wv])

end Verif
