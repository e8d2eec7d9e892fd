import Verif.Lemmas.HeapArithRef
import Verif.Props.HeapAll

/-!
# C64: arithmetic leaves the caller's expressions unchanged

For every memory, with any sharing of slices, and for well formed and other expressions: `Plus`, `Minus`,
`Multiply`, `Power`, `AsSimplifiedExpression`, `Substitute`, `SubstituteAccordingTo` and `Copy` return, or
panic with, what the functions on values say, and no expression the caller holds changes.  So programs
without `DerivativeWrt` may be read as programs on values.  `DerivativeWrt` breaks this through the slices
that results share with operands; products and powers share none.
-/

set_option linter.unusedSectionVars false

namespace Verif

variable {R : Type} [GoNum R]

/-! ## The same program on values -/

def valObj (xs : List (Scalar R)) (i : ℕ) : Go (Scalar R) :=
  match xs[i]? with
  | some x => .ok x
  | none => .error .index

def valAsMono : Scalar R → Go (Mono R)
  | .mono m => .ok m
  | _ => .error .typeAssert

/-- What a step returns if expressions were immutable values. -/
def HOp.val (xs : List (Scalar R)) : HOp R → Go (Scalar R)
  | .lit e => .ok e
  | .poly is => do
    let ms ← is.mapM (fun i => valObj xs i >>= valAsMono)
    .ok (.poly ⟨ms⟩)
  | .copy i => valObj xs i
  | .plus i j => valObj xs i >>= fun a => valObj xs j >>= fun b => a.plus b
  | .minus i j => valObj xs i >>= fun a => valObj xs j >>= fun b => a.minus b
  | .mul i j => valObj xs i >>= fun a => valObj xs j >>= fun b => a.mul b
  | .power i n => valObj xs i >>= fun a => a.power n
  | .simp i => valObj xs i >>= fun a => a.asSimplified
  | .subst i v j => valObj xs i >>= fun a => valObj xs j >>= fun b => a.substitute v b
  | .substMap i sm => valObj xs i >>= fun a =>
      sm.mapM (fun kv => valObj xs kv.2 >>= fun e => .ok (kv.1, e)) >>= fun m => a.substMap m
  | .deriv i v => valObj xs i >>= fun a => a.derivative v

/-- The outcomes of a program on values, and the values held at the end: those at the start, then the
results. -/
def valObserve (xs : List (Scalar R)) : List (HOp R) → List (Go (Scalar R)) × List (Scalar R)
  | [] => ([], xs)
  | o :: os =>
    let r := o.val xs
    let rest := valObserve (match r with | .ok y => xs ++ [y] | .error _ => xs) os
    (r :: rest.1, rest.2)

/-- The outcomes of a program on memory, each as it is when the call returns, and the state at the end. -/
def AStore.observe (s : AStore R) : List (HOp R) → List (Go (Scalar R)) × AStore R
  | [] => ([], s)
  | o :: os =>
    let r := o.call s.objs s.heap
    let rest := (s.step o).observe os
    (r.1.map (HScalar.load r.2.exps) :: rest.1, rest.2)

theorem observe_run (s : AStore R) (ops : List (HOp R)) : (s.observe ops).2 = s.run ops := by
  induction ops generalizing s with
  | nil => rfl
  | cons o os ih => exact ih (s.step o)

/-- All slices of the expressions held exist. -/
def AStore.Valid (s : AStore R) : Prop := ∀ e ∈ s.objs, e.Valid s.heap.exps

/-- `DerivativeWrt` is called only on well formed expressions in which the variable has exponent at most
one. -/
def HOp.Steady (xs : List (Scalar R)) : HOp R → Prop
  | .deriv i v => ∀ x, xs[i]? = some x → x.Canon ∧ x.LinearIn v
  | _ => True

def SteadyRun (xs : List (Scalar R)) : List (HOp R) → Prop
  | [] => True
  | o :: os => o.Steady xs ∧ SteadyRun (match o.val xs with | .ok y => xs ++ [y] | .error _ => xs) os

/-- Not a call of `DerivativeWrt`. -/
def HOp.Arith : HOp R → Prop
  | .deriv _ _ => False
  | _ => True

theorem steadyRun_arith {ops : List (HOp R)} (h : ∀ o ∈ ops, o.Arith) : ∀ xs, SteadyRun xs ops := by
  induction ops with
  | nil => exact fun _ => trivial
  | cons o os ih =>
    intro xs
    refine ⟨?_, ih (fun o ho => h o (by simp [ho])) _⟩
    have := h o (by simp)
    cases o <;> first | trivial | exact this.elim

/-! ## One step -/

variable {lo : ℕ}

theorem hObj_bind {γ C : Type} {N : Loader γ C} {objs : List (HScalar R)} {xs : List (Scalar R)} {h : Heap R}
    (hs : Rep 0 LS.list h.exps objs xs) (i : ℕ) {f : HScalar R → PM (Heap R) γ} {g : Scalar R → Go C}
    (h2 : ∀ a x, xs[i]? = some x → Rep 0 LS h.exps a x → Ref lo N (f a) h (g x)) :
    Ref lo N (hObj objs i >>= f) h (valObj xs i >>= g) := by
  unfold hObj valObj
  rcases hs.getElem? i with ⟨h3, h4⟩ | ⟨a, x, h3, h4, h5⟩
  · rw [h3, h4]
    exact Ref.readBind (g := g') rfl fun a ha => by cases ha
  · rw [h3, h4]
    exact Ref.readOk rfl (h2 a x h4 h5)
where g' {C : Type} : HScalar R → Go C := fun _ => .error .index

theorem hLit_ref (e : Scalar R) (h : Heap R) : Ref lo LS (hLit e) h (.ok e) := by
  cases e with
  | k c => exact Ref.pure Rep.k
  | var v => exact Ref.pure Rep.var
  | mono m => exact Ref.bindOk (hNew_ref m h) fun x h' _ hx => Ref.pure hx.toMono
  | poly p =>
    have h1 := Ref.traverse (lo := lo) (lo1 := 0) (M := LM) (f := hNew) (g := fun m => .ok m) p.monos
      (Rep.constList (h := h.exps) p.monos) fun a x h' _ ha => by
        obtain rfl := ha.const
        exact hNew_ref a h'
    rw [mapM_pure_map (f := fun m => m), List.map_id'] at h1
    exact Ref.bindOk h1 fun ms h' _ hms => Ref.pure hms.toPoly

theorem step_ref {objs : List (HScalar R)} {xs : List (Scalar R)} {h : Heap R} (hs : Rep 0 LS.list h.exps objs xs)
    (o : HOp R) (hst : o.Steady xs) : Ref 0 LS (o.call objs) h (o.val xs) := by
  cases o with
  | lit e => exact hLit_ref e h
  | poly is =>
    refine Ref.bind (M := LM.list) (Ref.traverse (lo1 := 0) is (Rep.constList is)
      fun a x h' he ha => ?_) fun ms z h' _ _ hms => Ref.pure hms.toPoly
    obtain rfl := ha.const
    refine hObj_bind (hs.mono he) a fun e y _ hy => ?_
    unfold hAsMono valAsMono
    cases e with
    | k c => rw [hy.k_inv]; exact Ref.panic
    | var c => rw [hy.var_inv]; exact Ref.panic
    | mono m =>
      obtain ⟨n, rfl, hm⟩ := Rep.mono_iff.mp hy
      exact Ref.pure hm
    | poly p =>
      obtain ⟨q, rfl, hp⟩ := hy.polyP
      exact Ref.panic
  | copy i =>
    have h1 : valObj xs i = valObj xs i >>= fun x => .ok x := by cases valObj xs i <;> rfl
    show Ref 0 LS _ h (valObj xs i)
    rw [h1]
    refine hObj_bind hs i fun e y _ hy => ?_
    cases e with
    | k c => exact Ref.pure hy
    | var c => exact Ref.pure hy
    | mono m =>
      obtain ⟨n, rfl, hm⟩ := Rep.mono_iff.mp hy
      exact Ref.bindOk (hCopy_ref hm) fun x h' _ hx => Ref.pure hx.toMono
    | poly p => exact Ref.pure hy
  | plus i j =>
    exact hObj_bind hs i fun a x _ ha => hObj_bind hs j fun b y _ hb => hPlus_ref ha hb
  | minus i j =>
    exact hObj_bind hs i fun a x _ ha => hObj_bind hs j fun b y _ hb => hMinus_ref ha hb
  | mul i j =>
    exact hObj_bind hs i fun a x _ ha => hObj_bind hs j fun b y _ hb => hMul_ref ha hb
  | power i n => exact hObj_bind hs i fun a x _ ha => hPower_ref ha n
  | simp i => exact hObj_bind hs i fun a x _ ha => hSimplified_ref ha
  | subst i v j =>
    exact hObj_bind hs i fun a x _ ha => hObj_bind hs j fun b y _ hb => hSubstitute_ref v ha hb
  | substMap i sm =>
    refine hObj_bind hs i fun a x _ ha => ?_
    refine Ref.bind (M := LKV.list) (Ref.traverse (lo1 := 0) sm (Rep.constList sm)
      fun kv kx h' he hk => ?_) fun m z h' he _ hm => hSubstMap_ref (ha.mono he) hm
    obtain rfl := hk.const
    exact hObj_bind (hs.mono he) kv.2 fun e y _ hy =>
      Ref.pure ⟨hy.valid, by rw [← hy.load]; rfl⟩
  | deriv i v =>
    refine hObj_bind hs i fun a x hx ha => ?_
    obtain ⟨hc, hl⟩ := hst x hx
    intro _
    have hsafe := scalar_safe v a h ha.valid.valid (by rw [ha.load]; exact scalar_steady hc hl)
    rw [← ha.load]
    exact ⟨hsafe.value, hsafe.ext, hsafe.pvs, fun b hb y hy => ⟨Nat.zero_le _, (hsafe.addrs b hb y hy).1⟩⟩

theorem store_rep {s : AStore R} (hs : s.Valid) : Rep 0 LS.list s.heap.exps s.objs s.values :=
  ⟨fun x hx => by
    obtain ⟨e, he, hx⟩ := List.mem_flatMap.mp hx
    exact ⟨Nat.zero_le _, hs e he x hx⟩, rfl⟩

theorem step_values {s : AStore R} (hs : s.Valid) {o : HOp R} (ho : o.Steady s.values) :
    (s.step o).Valid ∧ (s.step o).heap.pvs = s.heap.pvs ∧
      (o.call s.objs s.heap).1.map (HScalar.load (o.call s.objs s.heap).2.exps) = o.val s.values ∧
      (s.step o).values = (match o.val s.values with | .ok y => s.values ++ [y] | .error _ => s.values) := by
  have h1 := step_ref (store_rep hs) o ho (Nat.zero_le _)
  have hold : s.objs.map (HScalar.load (o.call s.objs s.heap).2.exps) = s.values :=
    (LS.list.load_prefix (store_rep hs).valid.valid h1.ext)
  have hval : ∀ e ∈ s.objs, e.Valid (o.call s.objs s.heap).2.exps := fun e he x hx =>
    (hs e he x hx).trans_le h1.ext.length_le
  have hv := h1.value
  have hp := h1.pvs
  have hb := h1.valid
  unfold AStore.step
  revert hv hp hb hold hval
  generalize o.call s.objs s.heap = r
  obtain ⟨r1, h'⟩ := r
  intro hold hval hv hp hb
  cases r1 with
  | error e =>
    refine ⟨hval, hp, hv, ?_⟩
    rw [← hv]
    exact hold
  | ok b =>
    refine ⟨?_, hp, hv, ?_⟩
    · intro e he
      rcases List.mem_append.mp he with he | he
      · exact hval e he
      · rw [List.mem_singleton] at he
        subst he
        exact (hb e rfl).valid
    · rw [← hv]
      show List.map (HScalar.load h'.exps) (s.objs ++ [b]) = s.values ++ [LS.load h'.exps b]
      rw [List.map_append, hold]
      rfl

/-! ## Programs -/

/-- A program on memory is the program on values: the same results and panics, and at the end every
expression held, old or new, stands for what it stood for when it was obtained.  Any slices may be shared;
`DerivativeWrt` is allowed by variables with exponent at most one. -/
theorem heapArith_observe_partial {s : AStore R} (hs : s.Valid) {ops : List (HOp R)} (hops : SteadyRun s.values ops) :
    ((s.observe ops).1, (s.observe ops).2.values) = valObserve s.values ops ∧
      (s.observe ops).2.Valid ∧ (s.observe ops).2.heap.pvs = s.heap.pvs := by
  induction ops generalizing s with
  | nil => exact ⟨rfl, hs, rfl⟩
  | cons o os ih =>
    obtain ⟨h1, h2, h3, h4⟩ := step_values hs hops.1
    have hops2 := hops.2
    rw [← h4] at hops2
    obtain ⟨i1, i2, i3⟩ := ih h1 hops2
    refine ⟨?_, i2, i3.trans h2⟩
    rw [h4] at i1
    unfold AStore.observe valObserve
    simp only
    rw [h3, ← i1]

/-- Programs of arithmetic are programs on values. -/
theorem heapArith_observe {s : AStore R} (hs : s.Valid) {ops : List (HOp R)} (hops : ∀ o ∈ ops, o.Arith) :
    ((s.observe ops).1, (s.observe ops).2.values) = valObserve s.values ops :=
  (heapArith_observe_partial hs (steadyRun_arith hops _)).1

theorem valObserve_prefix (xs : List (Scalar R)) (ops : List (HOp R)) : xs <+: (valObserve xs ops).2 := by
  induction ops generalizing xs with
  | nil => exact List.prefix_rfl
  | cons o os ih =>
    unfold valObserve
    refine List.IsPrefix.trans ?_ (ih _)
    cases o.val xs with
    | ok y => exact List.prefix_append _ _
    | error e => exact List.prefix_rfl

/-- No expression the caller holds changes. -/
theorem heapArith_unchanged {s : AStore R} (hs : s.Valid) {ops : List (HOp R)} (hops : ∀ o ∈ ops, o.Arith) :
    s.values <+: (s.run ops).values := by
  have h1 := congrArg Prod.snd (heapArith_observe hs hops)
  rw [← observe_run]
  exact (valObserve_prefix s.values ops).trans (h1 ▸ List.prefix_rfl)

/-- The same with derivatives by variables of exponent at most one. -/
theorem heapArith_unchanged_partial {s : AStore R} (hs : s.Valid) {ops : List (HOp R)}
    (hops : SteadyRun s.values ops) : s.values <+: (s.run ops).values := by
  have h1 := congrArg Prod.snd (heapArith_observe_partial hs hops).1
  rw [← observe_run]
  exact (valObserve_prefix s.values ops).trans (h1 ▸ List.prefix_rfl)

/-- The step uses only the first `n` expressions. -/
def HOp.Below (n : ℕ) : HOp R → Prop
  | .lit _ => True
  | .poly is => ∀ i ∈ is, i < n
  | .copy i => i < n
  | .plus i j => i < n ∧ j < n
  | .minus i j => i < n ∧ j < n
  | .mul i j => i < n ∧ j < n
  | .power i _ => i < n
  | .simp i => i < n
  | .subst i _ j => i < n ∧ j < n
  | .substMap i sm => i < n ∧ ∀ kv ∈ sm, kv.2 < n
  | .deriv i _ => i < n

theorem valObj_prefix {xs ys : List (Scalar R)} (h : xs <+: ys) {i : ℕ} (hi : i < xs.length) :
    valObj ys i = valObj xs i := by
  obtain ⟨t, rfl⟩ := h
  unfold valObj
  rw [List.getElem?_append_left hi]

theorem mapM_congr_mem {α β : Type} {f g : α → Go β} {l : List α} (h : ∀ a ∈ l, f a = g a) : l.mapM f = l.mapM g := by
  induction l with
  | nil => rfl
  | cons a l ih => rw [List.mapM_cons, List.mapM_cons, h a (by simp), ih fun b hb => h b (by simp [hb])]

theorem val_prefix {xs ys : List (Scalar R)} (h : xs <+: ys) {o : HOp R} (ho : o.Below xs.length) :
    o.val ys = o.val xs := by
  cases o with
  | lit e => rfl
  | poly is =>
    show (is.mapM _ >>= _) = (is.mapM _ >>= _)
    rw [mapM_congr_mem fun i hi => by rw [valObj_prefix h (ho i hi)]]
  | copy i => exact valObj_prefix h ho
  | plus i j => simp only [HOp.val]; rw [valObj_prefix h ho.1, valObj_prefix h ho.2]
  | minus i j => simp only [HOp.val]; rw [valObj_prefix h ho.1, valObj_prefix h ho.2]
  | mul i j => simp only [HOp.val]; rw [valObj_prefix h ho.1, valObj_prefix h ho.2]
  | power i n => simp only [HOp.val]; rw [valObj_prefix h ho]
  | simp i => simp only [HOp.val]; rw [valObj_prefix h ho]
  | subst i v j => simp only [HOp.val]; rw [valObj_prefix h ho.1, valObj_prefix h ho.2]
  | substMap i sm =>
    simp only [HOp.val]
    rw [valObj_prefix h ho.1, mapM_congr_mem fun kv hk => by rw [valObj_prefix h (ho.2 kv hk)]]
  | deriv i v => simp only [HOp.val]; rw [valObj_prefix h ho]

/-- A call gives the same outcome before and after any program of arithmetic. -/
theorem heapArith_repeat {s : AStore R} (hs : s.Valid) {o : HOp R} (ho : o.Arith) (hb : o.Below s.objs.length)
    {ops : List (HOp R)} (hops : ∀ p ∈ ops, p.Arith) :
    (o.call (s.run ops).objs (s.run ops).heap).1.map
        (HScalar.load (o.call (s.run ops).objs (s.run ops).heap).2.exps) =
      (o.call s.objs s.heap).1.map (HScalar.load (o.call s.objs s.heap).2.exps) := by
  have hst : ∀ xs, o.Steady xs := fun xs =>
    (steadyRun_arith (ops := [o]) (fun q hq => by rw [List.mem_singleton] at hq; exact hq ▸ ho) xs).1
  have h1 := (heapArith_observe_partial hs (steadyRun_arith hops _)).2.1
  rw [observe_run] at h1
  rw [(step_values hs (hst _)).2.2.1, (step_values h1 (hst _)).2.2.1]
  exact val_prefix (heapArith_unchanged hs hops) (by simpa [AStore.values] using hb)

/-! ## Results that share nothing -/

/-- A call that writes only to slices in `S` and to new ones. -/
def WritesIn {β : Type} (S : List ℕ) (x : PM (Heap R) β) : Prop :=
  ∀ h : Heap R, h.exps.length ≤ (x h).2.exps.length ∧
    ∀ a < h.exps.length, a ∉ S → (x h).2.exps.getD a [] = h.exps.getD a []

theorem WritesIn.pure {β : Type} {S : List ℕ} (b : β) : WritesIn S (pure b : PM (Heap R) β) :=
  fun _ => ⟨le_rfl, fun _ _ _ => rfl⟩

theorem WritesIn.panic {β : Type} {S : List ℕ} (e : Err) : WritesIn S (PM.panic e : PM (Heap R) β) :=
  fun _ => ⟨le_rfl, fun _ _ _ => rfl⟩

theorem WritesIn.read {β : Type} {S : List ℕ} (f : Heap R → Go β) : WritesIn S (PM.read f) :=
  fun _ => ⟨le_rfl, fun _ _ _ => rfl⟩

theorem WritesIn.alloc {S : List ℕ} (l : List ℤ) : WritesIn S (alloc l : PM (Heap R) ℕ) :=
  fun h => ⟨by simp [Verif.alloc], fun a ha _ => getD_prefix (List.prefix_append _ _) ha⟩

theorem WritesIn.bind {β γ : Type} {S : List ℕ} {x : PM (Heap R) β} {f : β → PM (Heap R) γ} (h1 : WritesIn S x)
    (h2 : ∀ b, WritesIn S (f b)) : WritesIn S (x >>= f) := by
  intro h
  cases ho : (x h).1 with
  | error e => rw [PM.bind_error ho]; exact h1 h
  | ok b =>
    rw [PM.bind_ok ho]
    have i1 := h1 h
    have i2 := h2 b (x h).2
    exact ⟨i1.1.trans i2.1, fun a ha hS => (i2.2 a (ha.trans_le i1.1) hS).trans (i1.2 a ha hS)⟩

theorem WritesIn.mono {β : Type} {S T : List ℕ} {x : PM (Heap R) β} (h1 : WritesIn S x) (h : S ⊆ T) : WritesIn T x :=
  fun hp => ⟨(h1 hp).1, fun a ha hT => (h1 hp).2 a ha fun hS => hT (h hS)⟩

theorem WritesIn.traverse {α β : Type} {S : List ℕ} {f : α → PM (Heap R) β} (l : List α)
    (h : ∀ a ∈ l, WritesIn S (f a)) : WritesIn S (PM.traverse f l) := by
  induction l with
  | nil => exact WritesIn.pure _
  | cons a l ih =>
    exact (h a (by simp)).bind fun b => (ih fun a' ha' => h a' (by simp [ha'])).bind fun bs => WritesIn.pure _

theorem monoDerivative_writes (v : Var R) (m : HMono R) : WritesIn [m.addr] (pMonoDerivative v m) := by
  intro h
  unfold pMonoDerivative
  cases hr : m.derivative v h.exps with
  | error e => exact ⟨le_rfl, fun _ _ _ => rfl⟩
  | ok r =>
    simp only
    unfold HMono.derivative at hr
    obtain ⟨-, -, hr⟩ := Go.bind_eq_ok.mp hr
    obtain ⟨-, -, hr⟩ := Go.bind_eq_ok.mp hr
    split at hr
    · cases hr; exact ⟨le_rfl, fun _ _ _ => rfl⟩
    · split at hr
      · cases hr
      · split at hr
        · cases hr; exact ⟨le_rfl, fun _ _ _ => rfl⟩
        · split at hr
          · cases hr
            exact ⟨by simp, fun a ha _ => getD_prefix (List.prefix_append _ _) ha⟩
          · cases hr
            refine ⟨by simp, fun a ha hS => ?_⟩
            simp only
            rw [List.getD_eq_getElem?_getD, List.getD_eq_getElem?_getD, List.getElem?_modify_ne]
            simpa [eq_comm] using hS

/-- `DerivativeWrt` writes only to the slices of its receiver and to new ones. -/
theorem heapArith_derivative_writes (v : Var R) (e : HScalar R) : WritesIn e.addrs (pScalarDerivative v e) := by
  cases e with
  | k c => exact WritesIn.pure _
  | var w =>
    refine (WritesIn.read _).bind fun _ => (WritesIn.read _).bind fun _ => ?_
    split
    · exact WritesIn.pure _
    · exact WritesIn.pure _
  | mono m => exact monoDerivative_writes v m
  | poly p =>
    refine (WritesIn.read _).bind fun _ => (WritesIn.read _).bind fun _ => ?_
    refine (WritesIn.traverse p.monos fun m hm => ?_).bind fun ds => ?_
    · unfold pDerivStep
      split
      · exact WritesIn.pure _
      · refine ((monoDerivative_writes v m).mono ?_).bind fun d => ?_
        · intro x hx
          rw [List.mem_singleton] at hx
          exact hx ▸ List.mem_map_of_mem hm
        · cases d with
          | k c =>
            dsimp only
            split
            · exact WritesIn.pure _
            · exact (WritesIn.alloc _).bind fun _ => WritesIn.pure _
          | var w => exact WritesIn.panic _
          | mono d => exact WritesIn.pure _
          | poly d => exact WritesIn.panic _
    · split
      · exact WritesIn.pure _
      · exact WritesIn.pure _

/-- The memory after differentiating one expression several times. -/
def derivAll (e : HScalar R) (vs : List (Var R)) (h : Heap R) : Heap R :=
  vs.foldl (fun h v => (pScalarDerivative v e h).2) h

theorem derivAll_keeps {e e2 : HScalar R} (vs : List (Var R)) {h : Heap R} (hv : e2.Valid h.exps)
    (hd : ∀ x ∈ e2.addrs, x ∉ e.addrs) : e2.load (derivAll e vs h).exps = e2.load h.exps := by
  induction vs generalizing h with
  | nil => rfl
  | cons v vs ih =>
    have h1 := heapArith_derivative_writes v e h
    have h2 := ih (h := (pScalarDerivative v e h).2) fun x hx => (hv x hx).trans_le h1.1
    refine h2.trans ?_
    exact HScalar.load_congr fun x hx => h1.2 x (hv x hx) (hd x hx)

/-- The calls whose results share no slice with an expression held before. -/
def HOp.Fresh : HOp R → Prop
  | .lit _ => True
  | .mul _ _ => True
  | .power _ _ => True
  | _ => False

/-- A product or power can be differentiated any number of times: no expression held before the call
changes. -/
theorem heapArith_product_derivative {s : AStore R} (hs : s.Valid) {o : HOp R} (ho : o.Fresh) {r : HScalar R}
    {h : Heap R} (hr : o.call s.objs s.heap = (.ok r, h)) (vs : List (Var R)) :
    s.objs.map (HScalar.load (derivAll r vs h).exps) = s.values := by
  have h1 : Ref s.heap.exps.length LS (o.call s.objs) s.heap (o.val s.values) := by
    have hrep := store_rep hs
    cases o with
    | lit e => exact hLit_ref e _
    | mul i j =>
      exact hObj_bind hrep i fun a x _ ha => hObj_bind hrep j fun b y _ hb => hMul_ref ha hb
    | power i n => exact hObj_bind hrep i fun a x _ ha => hPower_ref ha n
    | _ => exact ho.elim
  have h2 := h1 le_rfl
  have hext := h2.ext
  have hvd := h2.valid r (by rw [hr])
  rw [hr] at hext hvd
  refine List.map_inj_left.mpr fun e he => ?_
  rw [derivAll_keeps vs (fun x hx => (hs e he x hx).trans_le hext.length_le) fun x hx hx2 => ?_]
  · exact HScalar.load_prefix (hs e he) hext
  · have := (hvd x hx2).1
    have := hs e he x hx
    omega

/-! ## Sums share slices -/

/-- `2y`, `x²`. -/
def wAS : AStore ℚ := ⟨[.mono ⟨2, 0, [wy]⟩, .mono ⟨1, 1, [wx]⟩], ⟨[[1], [2]], []⟩⟩

theorem wAS_valid : wAS.Valid := by
  intro e he x hx
  simp only [wAS, List.mem_cons, List.not_mem_nil, or_false] at he
  rcases he with rfl | rfl <;> simp [HScalar.addrs] at hx <;> subst hx <;> decide

/-- `s := 2y + x²; s.DerivativeWrt(x)` turns the operand `x²` into `x`. -/
theorem heapArith_sum_derivative_false : ¬ ∀ (s : AStore ℚ) (ops : List (HOp ℚ)), s.Valid →
    s.values <+: (s.run ops).values := by
  intro h
  have h1 := h wAS [.plus 0 1, .deriv 2 wx] wAS_valid
  revert h1
  decide +kernel

/-- `d := x² - 2y; d.DerivativeWrt(x)` leaves `x²` alone, since the receiver `Monomial` is copied. -/
example : (wAS.run [.minus 1 0, .deriv 2 wx]).values.take 2 = wAS.values := by decide +kernel

/-- Substituting for a variable that does not occur gives the receiver's slices: differentiating the result
changes the receiver. -/
theorem heapArith_substitute_derivative :
    (wAS.run [.subst 1 wy 0, .deriv 2 wx]).values.take 2 ≠ wAS.values := by decide +kernel

/-- Likewise for `AsSimplifiedExpression`. -/
theorem heapArith_simplify_derivative :
    (wAS.run [.simp 1, .deriv 2 wx]).values.take 2 ≠ wAS.values := by decide +kernel

/-- A program with every kind of step, a recovered panic, and shared slices. -/
def wAOps : List (HOp ℚ) := [.plus 0 1, .mul 2 0, .minus 3 2, .power 2 2, .power 2 (-1), .simp 1, .subst 2 wx 0,
  .substMap 3 [(wx, 0), (wy, 1)], .lit (.k 3), .poly [0, 1], .poly [2], .copy 1]

example : (∀ o ∈ wAOps, o.Arith) ∧ (wAS.observe wAOps).1.length = 12 ∧ (wAS.run wAOps).objs.length = 12 := by
  refine ⟨?_, by decide +kernel, by decide +kernel⟩
  intro o ho
  simp only [wAOps, List.mem_cons, List.not_mem_nil, or_false] at ho
  rcases ho with rfl | rfl | rfl | rfl | rfl | rfl | rfl | rfl | rfl | rfl | rfl | rfl <;> trivial

/-- A product in memory, differentiated twice. -/
example : ∃ r h, (HOp.mul 1 1).call wAS.objs wAS.heap = (.ok r, h) ∧
    r.load (derivAll r [wx, wx] h).exps ≠ r.load h.exps ∧
    wAS.objs.map (HScalar.load (derivAll r [wx, wx] h).exps) = wAS.values :=
  ⟨_, _, rfl, by decide +kernel, by decide +kernel⟩

end Verif
