import Verif.Lemmas.HeapOwn
import Verif.Props.HeapArith
import Verif.Props.Deriv

/-!
# C66: DerivativeWrt of a computed scalar returns the derivative of what its receiver stands for

`DerivativeWrt` writes to its receiver while it reads it, so its result is right only if the terms of the
receiver have different exponent slices.  Every program of scalar calls, `DerivativeWrt` included, keeps
this: terms that share a slice match, and `Simplify` merges them.  So every call returns what the function on
values returns for the values held at that moment.  What the call changes is described exactly.
-/

set_option linter.unusedSectionVars false

namespace Verif

variable {R : Type} [GoNum R]

/-- No expression uses a slice twice, and monomials with the same exponent slice have the same factors. -/
structure AStore.Separate (s : AStore R) : Prop where
  valid : s.Valid
  once : ∀ e ∈ s.objs, e.addrs.Nodup
  factors : ∀ e ∈ s.objs, ∀ e' ∈ s.objs, ∀ m ∈ e.monos, ∀ m' ∈ e'.monos, m.addr = m'.addr → m.vars = m'.vars

/-- The slices of the expression held at a position. -/
def addrsAt (objs : List (HScalar R)) (i : ℕ) : List ℕ :=
  match objs[i]? with
  | some e => e.addrs
  | none => []

/-- A `Polynomial` literal is made of monomials with different slices. -/
def HOp.Separate (objs : List (HScalar R)) : HOp R → Prop
  | .poly is => (is.flatMap (addrsAt objs)).Nodup
  | _ => True

def SeparateRun (s : AStore R) : List (HOp R) → Prop
  | [] => True
  | o :: os => o.Separate s.objs ∧ SeparateRun (s.step o) os

theorem separate_iff {s : AStore R} : s.Separate ↔ ∃ T : Tags R, ∀ e ∈ s.objs, Own T s.heap.exps.length e := by
  constructor
  · intro hs
    classical
    refine ⟨fun a => if h : ∃ e ∈ s.objs, ∃ m ∈ e.monos, m.addr = a then (h.choose_spec.2.choose).vars else [], ?_⟩
    intro e he
    refine ⟨fun m hm => ⟨hs.valid e he _ (by rw [HScalar.addrs_eq]; exact List.mem_map_of_mem hm), ?_⟩, hs.once e he⟩
    have h : ∃ e ∈ s.objs, ∃ x ∈ e.monos, x.addr = m.addr := ⟨e, he, m, hm, rfl⟩
    simp only
    rw [dif_pos h]
    exact hs.factors _ h.choose_spec.1 e he _ h.choose_spec.2.choose_spec.1 m hm h.choose_spec.2.choose_spec.2
  · rintro ⟨T, hT⟩
    refine ⟨fun e he x hx => ?_, fun e he => (hT e he).2, fun e he e' he' m hm m' hm' h => ?_⟩
    · rw [HScalar.addrs_eq] at hx
      obtain ⟨m, hm, rfl⟩ := List.mem_map.mp hx
      exact ((hT e he).1 m hm).1
    · rw [← ((hT e he).1 m hm).2, ← ((hT e' he').1 m' hm').2, h]

/-! ## Every step keeps this -/

theorem hObj_keeps {γ : Type} {objs : List (HScalar R)} {T : Tags R} {h : Heap R} {f : HScalar R → PM (Heap R) γ}
    {Q : Tags R → ℕ → γ → Prop} (i : ℕ) (h2 : ∀ e, objs[i]? = some e → Keeps T (f e) h Q) :
    Keeps T (hObj objs i >>= f) h Q := by
  refine Keeps.readBind fun e he => h2 e ?_
  cases ho : objs[i]? with
  | none => rw [ho] at he; cases he
  | some x => rw [ho] at he; cases he; rfl

theorem hLit_keeps {T : Tags R} {h : Heap R} (e : Scalar R) : Keeps T (hLit e) h Own := by
  cases e with
  | k c => exact Keeps.pure Own.k
  | var v => exact Keeps.pure Own.var
  | mono m => exact Keeps.retMono ((hNew_keeps m).weaken fun _ _ _ _ _ hb => hb.1)
  | poly p =>
    have h1 : ∀ (l : List (Mono R)) {T : Tags R} {h : Heap R}, Keeps T (PM.traverse hNew l) h
        (fun T' n ms => CL T' n ms ∧ (ms.map (·.addr)).Nodup ∧ ∀ m ∈ ms, h.exps.length ≤ m.addr) := by
      intro l
      induction l with
      | nil => exact Keeps.pure ⟨CL.nil, List.nodup_nil, fun d hd => (by cases hd)⟩
      | cons m l ih =>
        intro T h
        refine Keeps.bind (hNew_keeps m) fun T' h' b ha hn hb => ?_
        refine Keeps.bind ih fun T'' h'' ms ha' hn' hms => Keeps.pure ?_
        refine ⟨CL.cons (hb.1.mono ha' hn') hms.1, ?_, ?_⟩
        · rw [List.map_cons, List.nodup_cons]
          refine ⟨fun hm => ?_, hms.2.1⟩
          obtain ⟨x, hx, he⟩ := List.mem_map.mp hm
          have := hms.2.2 x hx
          have := hb.1.1
          omega
        · intro x hx
          rcases List.mem_cons.mp hx with rfl | hx
          · exact hb.2
          · exact hn.trans (hms.2.2 x hx)
    exact Keeps.bind (h1 p.monos) fun _ _ _ _ _ hms => Keeps.pure ⟨hms.1, hms.2.1⟩

theorem hObjAsMono_run {objs : List (HScalar R)} {T : Tags R} {h : Heap R} (hT : ∀ e ∈ objs, Own T h.exps.length e)
    (i : ℕ) : ∃ r, (do
      let e ← hObj objs i
      hAsMono e : PM (Heap R) (HMono R)) h = (r, h) ∧ ∀ m, r = .ok m → CM T h.exps.length m ∧ addrsAt objs i = [m.addr] := by
  cases ho : objs[i]? with
  | none =>
    refine ⟨.error .index, PM.bind_error (x := hObj objs i) ?_, fun m hm => by cases hm⟩
    show (match objs[i]? with | some e => Except.ok e | none => Except.error Err.index) = _
    rw [ho]
  | some e =>
    have h1 : (hObj objs i >>= fun e => hAsMono e) h = hAsMono e h := by
      refine PM.bind_ok (x := hObj objs i) ?_
      show (match objs[i]? with | some e => Except.ok e | none => Except.error Err.index) = _
      rw [ho]
    have h2 := hT e (List.mem_of_getElem? ho)
    cases e with
    | mono m =>
      refine ⟨.ok m, h1, fun m' hm => ?_⟩
      cases hm
      exact ⟨h2.1 m (by simp [HScalar.monos]), by unfold addrsAt; rw [ho]; rfl⟩
    | k c => exact ⟨_, h1, fun m hm => by cases hm⟩
    | var c => exact ⟨_, h1, fun m hm => by cases hm⟩
    | poly c => exact ⟨_, h1, fun m hm => by cases hm⟩

theorem hObjs_run {objs : List (HScalar R)} {T : Tags R} {h : Heap R} (hT : ∀ e ∈ objs, Own T h.exps.length e)
    (is : List ℕ) : ∃ r, PM.traverse (fun i => (do
      let e ← hObj objs i
      hAsMono e : PM (Heap R) (HMono R))) is h = (r, h) ∧ ∀ ms, r = .ok ms → CL T h.exps.length ms ∧
        ms.map (·.addr) = is.flatMap (addrsAt objs) := by
  induction is with
  | nil => exact ⟨.ok [], rfl, fun ms hms => by cases hms; exact ⟨CL.nil, rfl⟩⟩
  | cons i is ih =>
    obtain ⟨r, hr, hq⟩ := hObjAsMono_run hT i
    obtain ⟨rs, hrs, hqs⟩ := ih
    unfold PM.traverse
    cases r with
    | error e =>
      refine ⟨.error e, ?_, fun ms hms => by cases hms⟩
      rw [PM.bind_error (e := e) (by rw [hr]), hr]
    | ok m =>
      rw [PM.bind_ok (a := m) (by rw [hr]), hr]
      cases rs with
      | error e =>
        refine ⟨.error e, ?_, fun ms hms => by cases hms⟩
        rw [PM.bind_error (e := e) (by rw [hrs]), hrs]
      | ok ms =>
        refine ⟨.ok (m :: ms), ?_, fun ms' hms => ?_⟩
        · rw [PM.bind_ok (a := ms) (by rw [hrs]), hrs]
          rfl
        · cases hms
          obtain ⟨h1, h2⟩ := hq m rfl
          obtain ⟨h3, h4⟩ := hqs ms rfl
          exact ⟨CL.cons h1 h3, by rw [List.map_cons, List.flatMap_cons, h2, h4]; rfl⟩

theorem call_keeps {objs : List (HScalar R)} {T : Tags R} {h : Heap R} (hT : ∀ e ∈ objs, Own T h.exps.length e)
    (o : HOp R) (ho : o.Separate objs) : Keeps T (o.call objs) h Own := by
  have hmem : ∀ {i : ℕ} {e : HScalar R}, objs[i]? = some e → Own T h.exps.length e :=
    fun he => hT _ (List.mem_of_getElem? he)
  cases o with
  | lit e => exact hLit_keeps e
  | poly is =>
    obtain ⟨r, hr, hq⟩ := hObjs_run hT is
    refine Keeps.bind (Q := fun T n (ms : List (HMono R)) => CL T n ms ∧ (HScalar.poly ⟨ms⟩).addrs.Nodup) ?_
      fun T' h' ms _ _ hms => Keeps.pure ⟨hms.1, hms.2⟩
    refine ⟨T, TagAgree.refl _ _, by rw [hr], fun ms hms => ?_⟩
    rw [hr] at hms ⊢
    obtain ⟨h1, h2⟩ := hq ms hms
    exact ⟨h1, by show (ms.map (·.addr)).Nodup; rw [h2]; exact ho⟩
  | copy i =>
    refine hObj_keeps i fun e he => ?_
    cases e with
    | k c => exact Keeps.pure Own.k
    | var v => exact Keeps.pure Own.var
    | mono m => exact Keeps.retMono ((hCopy_keeps m).weaken fun _ _ _ _ _ hb => hb.1)
    | poly p => exact Keeps.pure (hmem he)
  | plus i j => exact hObj_keeps i fun a ha => hObj_keeps j fun b hb => hPlus_keeps (hmem ha).1 (hmem hb).1
  | minus i j => exact hObj_keeps i fun a ha => hObj_keeps j fun b hb => hMinus_keeps (hmem ha).1
  | mul i j => exact hObj_keeps i fun a ha => hObj_keeps j fun b hb => hMul_keeps a b
  | power i n => exact hObj_keeps i fun a ha => hPower_keeps a n
  | simp i => exact hObj_keeps i fun a ha => hSimplified_keeps (hmem ha).1
  | subst i v j => exact hObj_keeps i fun a ha => hObj_keeps j fun b hb => hSubstitute_keeps (hmem ha) (hmem hb)
  | substMap i sm =>
    refine hObj_keeps i fun a ha => ?_
    refine Keeps.bind (Q := fun T n (m : HSubMap R) => OwnMap T n m) ?_ fun T' h' m hag hn hm => hSubstMap_keeps hm
    refine Keeps.traverse (P := fun T n (_ : Var R × ℕ) => ∀ e ∈ objs, Own T n e)
      (Q := fun T n (kv : Var R × HScalar R) => Own T n kv.2) (fun _ _ _ _ _ hp ha hn e he => (hp e he).mono ha hn)
      (fun _ _ _ _ _ hb ha hn => hb.mono ha hn) (fun T h kv hp => ?_) sm fun _ _ => hT
    exact hObj_keeps kv.2 fun e he => Keeps.pure (hp e (List.mem_of_getElem? he))
  | deriv i v => exact hObj_keeps i fun a ha => pScalarDerivative_keeps v (hmem ha)

/-- Every step keeps the terms of every expression separate. -/
theorem heapDeriv_step {s : AStore R} (hs : s.Separate) {o : HOp R} (ho : o.Separate s.objs) :
    (s.step o).Separate := by
  obtain ⟨T, hT⟩ := separate_iff.mp hs
  obtain ⟨T', ha, hn, hq⟩ := call_keeps hT o ho
  refine separate_iff.mpr ⟨T', ?_⟩
  unfold AStore.step
  revert ha hn hq
  generalize o.call s.objs s.heap = r
  obtain ⟨r, h'⟩ := r
  intro ha hn hq
  cases r with
  | error e => exact fun e he => (hT e he).mono ha hn
  | ok b =>
    intro e he
    rcases List.mem_append.mp he with he | he
    · exact (hT e he).mono ha hn
    · rw [List.mem_singleton] at he
      exact he ▸ hq b rfl

theorem heapDeriv_run {s : AStore R} (hs : s.Separate) {ops : List (HOp R)} (ho : SeparateRun s ops) :
    (s.run ops).Separate := by
  induction ops generalizing s with
  | nil => exact hs
  | cons o os ih => exact ih (heapDeriv_step hs ho.1) ho.2

/-! ## What the calls return -/

/-- In every state reached, every call returns, or panics with, what the function on values gives for the
values held at that moment. -/
theorem heapDeriv_returns {s : AStore R} (hs : s.Separate) {ops : List (HOp R)} (ho : SeparateRun s ops) (o : HOp R) :
    (o.call (s.run ops).objs (s.run ops).heap).1.map
        (HScalar.load (o.call (s.run ops).objs (s.run ops).heap).2.exps) = o.val (s.run ops).values := by
  have h1 := heapDeriv_run hs ho
  revert h1
  generalize s.run ops = t
  intro h1
  by_cases hd : ∃ i v, o = .deriv i v
  · obtain ⟨i, v, rfl⟩ := hd
    show ((hObj t.objs i >>= pScalarDerivative v) t.heap).1.map
      (HScalar.load ((hObj t.objs i >>= pScalarDerivative v) t.heap).2.exps) = (valObj t.values i >>= fun a => a.derivative v)
    rcases (store_rep h1.valid).getElem? i with ⟨h3, h4⟩ | ⟨a, x, h3, h4, h5⟩
    · have h6 : (hObj t.objs i t.heap).1 = .error .index := by unfold hObj PM.read; rw [h3]
      rw [PM.bind_error h6]
      unfold valObj
      rw [h4]
      rfl
    · have h6 : (hObj t.objs i t.heap).1 = .ok a := by unfold hObj PM.read; rw [h3]
      rw [PM.bind_ok h6]
      unfold valObj
      rw [h4]
      have ha := List.mem_of_getElem? h3
      have h7 := (scalar_spec v a t.heap (h1.valid a ha) (h1.once a ha)).value
      rw [← h5.load]
      exact h7
  · refine (step_values h1.valid ?_).2.2.1
    cases o with
    | deriv i v => exact (hd ⟨i, v, rfl⟩).elim
    | _ => trivial

/-- The derivative of a well-formed expression denotes the formal partial derivative of what the receiver
stands for when the call is made. -/
theorem heapDeriv_pderiv {R : Type} [Field R] [LinearOrder R] {s : AStore R} (hs : s.Separate) {ops : List (HOp R)}
    (ho : SeparateRun s ops) {i : ℕ} {x : Scalar R} (hx : (s.run ops).values[i]? = some x) (hc : x.Canon) {v : Var R}
    (hv : v.OK) : ∃ r h, (HOp.deriv i v).call (s.run ops).objs (s.run ops).heap = (.ok r, h) ∧
      (r.load h.exps).den = MvPolynomial.pderiv v.id x.den := by
  obtain ⟨r, h1, -, h2⟩ := derivative_denotes_pderiv hc hv
  have h3 := heapDeriv_returns hs ho (.deriv i v)
  have h4 : (HOp.deriv i v).val (s.run ops).values = .ok r := by
    show (valObj _ i >>= fun a => a.derivative v) = _
    unfold valObj
    rw [hx]
    exact h1
  rw [h4] at h3
  revert h3
  generalize (HOp.deriv i v).call (s.run ops).objs (s.run ops).heap = c
  obtain ⟨c, h⟩ := c
  intro h3
  cases c with
  | error e => cases h3
  | ok b =>
    refine ⟨b, h, rfl, ?_⟩
    have h5 : HScalar.load h.exps b = r := by injection h3
    rw [h5, h2]

/-! ## What `DerivativeWrt` changes -/

theorem afterDerivative_congr {m n : Mono R} (he : m.exps = n.exps) (hv : m.vars = n.vars) (v : Var R) :
    (m.afterDerivative v).exps = (n.afterDerivative v).exps := by
  unfold Mono.afterDerivative
  rw [he, hv]
  cases findVar v n.vars with
  | none => exact he
  | some i =>
    simp only
    split
    · exact he
    · rfl

/-- What an expression stands for after a call that succeeded, where `S` are the slices of the receiver:
monomials with such a slice lose one of the exponent of `v`, if it is not one; the others stay. -/
def HScalar.loadAfter (S : List ℕ) (v : Var R) (h : ExpHeap) : HScalar R → Scalar R
  | .k c => .k c
  | .var w => .var w
  | .mono m => .mono (go m)
  | .poly p => .poly ⟨p.monos.map go⟩
where
  go (m : HMono R) : Mono R := if m.addr ∈ S then (m.load h).afterDerivative v else m.load h

theorem deriv_call {s : AStore R} {i : ℕ} {e : HScalar R} (he : s.objs[i]? = some e) (v : Var R) :
    (HOp.deriv i v).call s.objs s.heap = pScalarDerivative v e s.heap := by
  have h6 : (hObj s.objs i s.heap).1 = .ok e := by unfold hObj PM.read; rw [he]
  exact PM.bind_ok h6

/-- Monomials of the receiver, one by one. -/
theorem load_monos {e : HScalar R} {h h' : ExpHeap} {f : Mono R → Mono R} {g : Scalar R → Scalar R}
    (hm : ∀ m, g (.mono m) = .mono (f m)) (hp : ∀ ms, g (.poly ⟨ms⟩) = .poly ⟨ms.map f⟩)
    (hg : e.load h' = g (e.load h)) : ∀ m ∈ e.monos, m.load h' = f (m.load h) := by
  intro m hme
  cases e with
  | k c => cases hme
  | var w => cases hme
  | mono x =>
    rw [HScalar.monos, List.mem_singleton] at hme
    subst hme
    have h1 : Scalar.mono (m.load h') = g (.mono (m.load h)) := hg
    rw [hm] at h1
    exact Scalar.mono.inj h1
  | poly p =>
    have h1 : Scalar.poly ⟨p.monos.map (HMono.load h')⟩ = g (.poly ⟨p.monos.map (HMono.load h)⟩) := hg
    rw [hp, List.map_map] at h1
    have h2 := congrArg Poly.monos (Scalar.poly.inj h1)
    exact List.map_inj_left.mp h2 m hme

/-- After a call that succeeds, every expression held, the receiver included, stands for what `loadAfter`
says. -/
theorem heapDeriv_effect {s : AStore R} (hs : s.Separate) {i : ℕ} {e : HScalar R} (he : s.objs[i]? = some e)
    {v : Var R} {r : HScalar R} {h : Heap R} (hr : (HOp.deriv i v).call s.objs s.heap = (.ok r, h)) :
    s.objs.map (HScalar.load h.exps) = s.objs.map (HScalar.loadAfter e.addrs v s.heap.exps) := by
  rw [deriv_call he] at hr
  have hmem := List.mem_of_getElem? he
  have h1 := scalar_spec v e s.heap (hs.valid e hmem) (hs.once e hmem)
  have hself := h1.self
  have hframe := h1.frame
  have hval := h1.value
  rw [hr] at hself hframe hval
  simp only at hself hframe hval
  have hok : (LS.load s.heap.exps e).derivative v = .ok (LS.load h.exps r) := hval.symm
  unfold Scalar.afterCall at hself
  rw [hok] at hself
  have h2 : ∀ m ∈ e.monos, m.load h.exps = (m.load s.heap.exps).afterDerivative v :=
    load_monos (g := fun x => x.afterDerivative v) (fun _ => rfl) (fun _ => rfl) hself
  have h3 : ∀ e2 ∈ s.objs, ∀ m ∈ e2.monos, m.load h.exps = HScalar.loadAfter.go e.addrs v s.heap.exps m := by
    intro e2 he2 m hm
    unfold HScalar.loadAfter.go
    split
    · rename_i ha
      rw [HScalar.addrs_eq] at ha
      obtain ⟨m', hm', haddr⟩ := List.mem_map.mp ha
      have hvars := hs.factors e hmem e2 he2 m' hm' m hm haddr
      have h4 := h2 m' hm'
      have h5 : ((m'.load s.heap.exps).afterDerivative v).exps = ((m.load s.heap.exps).afterDerivative v).exps :=
        afterDerivative_congr (by show s.heap.exps.getD m'.addr [] = s.heap.exps.getD m.addr []; rw [haddr]) hvars v
      have h6 : (m.load h.exps).exps = ((m.load s.heap.exps).afterDerivative v).exps := by
        rw [← h5, ← h4]
        show h.exps.getD m.addr [] = h.exps.getD m'.addr []
        rw [haddr]
      have h7 : ((m.load s.heap.exps).afterDerivative v).coeff = m.coeff ∧
          ((m.load s.heap.exps).afterDerivative v).vars = m.vars := by
        unfold Mono.afterDerivative
        split
        · exact ⟨rfl, rfl⟩
        · split
          · exact ⟨rfl, rfl⟩
          · exact ⟨rfl, rfl⟩
      calc m.load h.exps = ⟨m.coeff, (m.load h.exps).exps, m.vars⟩ := rfl
        _ = (m.load s.heap.exps).afterDerivative v := by rw [h6, ← h7.1, ← h7.2]
    · rename_i ha
      have h4 := hframe m.addr (hs.valid e2 he2 _ (by rw [HScalar.addrs_eq]; exact List.mem_map_of_mem hm)) ha
      unfold HMono.load
      rw [h4]
  refine List.map_inj_left.mpr fun e2 he2 => ?_
  have h4 := h3 e2 he2
  cases e2 with
  | k c => rfl
  | var w => rfl
  | mono m => exact congrArg Scalar.mono (h4 m (by simp [HScalar.monos]))
  | poly p => exact congrArg (fun l => Scalar.poly ⟨l⟩) (List.map_inj_left.mpr fun m hm => h4 m hm)

/-- A call that panics changes nothing. -/
theorem heapDeriv_panic {s : AStore R} (hs : s.Separate) {i : ℕ} {v : Var R} {err : Err} {h : Heap R}
    (hr : (HOp.deriv i v).call s.objs s.heap = (.error err, h)) : s.objs.map (HScalar.load h.exps) = s.values := by
  cases he : s.objs[i]? with
  | none =>
    have h6 : (hObj s.objs i s.heap).1 = .error .index := by unfold hObj PM.read; rw [he]
    have h7 : (HOp.deriv i v).call s.objs s.heap = (.error .index, s.heap) := PM.bind_error h6
    rw [h7] at hr
    cases hr
    rfl
  | some e =>
    rw [deriv_call he] at hr
    have hmem := List.mem_of_getElem? he
    have h1 := scalar_spec v e s.heap (hs.valid e hmem) (hs.once e hmem)
    have hself := h1.self
    have hframe := h1.frame
    have hval := h1.value
    rw [hr] at hself hframe hval
    simp only at hself hframe hval
    have hok : (LS.load s.heap.exps e).derivative v = .error err := hval.symm
    unfold Scalar.afterCall at hself
    rw [hok] at hself
    have h2 : ∀ m ∈ e.monos, m.load h.exps = m.load s.heap.exps :=
      load_monos (f := fun m => m) (g := fun x => x) (fun _ => rfl) (fun _ => by rw [List.map_id']) hself
    refine List.map_inj_left.mpr fun e2 he2 => HScalar.load_congr fun x hx => ?_
    by_cases hxe : x ∈ e.addrs
    · rw [HScalar.addrs_eq] at hxe
      obtain ⟨m, hm, rfl⟩ := List.mem_map.mp hxe
      exact congrArg Mono.exps (h2 m hm)
    · exact hframe x (hs.valid e2 he2 x hx) hxe

/-! ## Examples -/

/-- No expressions at all. -/
def wEmpty : AStore ℚ := ⟨[], ⟨[], []⟩⟩

theorem wEmpty_separate : wEmpty.Separate :=
  ⟨fun e he => (by cases he), fun e he => (by cases he), fun e he => (by cases he)⟩

/-- A program that starts with nothing: `2y`, `x²`, `x²`, sums that share slices, a square, a polynomial made of
held monomials, derivatives of the sums and derivatives of derivatives. -/
def wDOps : List (HOp ℚ) := [.lit (.mono (wm1 2 1 1)), .lit (.mono (wm1 1 0 3)), .lit (.mono (wm1 5 0 2)),
  .plus 0 1, .plus 3 3, .plus 4 3, .power 3 2, .poly [0, 1], .deriv 5 wx, .deriv 8 wx, .deriv 5 wx]

instance (objs : List (HScalar ℚ)) (o : HOp ℚ) : Decidable (o.Separate objs) := by
  cases o <;> (unfold HOp.Separate; infer_instance)

instance (s : AStore ℚ) (ops : List (HOp ℚ)) : Decidable (SeparateRun s ops) := by
  induction ops generalizing s with
  | nil => unfold SeparateRun; infer_instance
  | cons o os ih => unfold SeparateRun; have := ih (s.step o); infer_instance

example : SeparateRun wEmpty wDOps := by decide +kernel

/-- The sum `3·(2y + x³)` shares the slice of `x³` with two other sums and with the literal. Its derivative is
`9x²`, and the derivative of that is `18x`. By then the two calls have made the sum stand for `6y + 3x`, and its
derivative is `3`: each call is right about what its receiver stands for when it is made. -/
example : (wEmpty.observe wDOps).1.drop 8 =
    [.ok (.poly ⟨[wm1 9 0 2]⟩), .ok (.poly ⟨[wm1 18 0 1]⟩), .ok (.poly ⟨[wm0 3]⟩)] := by decide +kernel

/-- A `Polynomial` literal that has the same `Monomial` twice, `x³ + x³`: its derivative is not `6x²`. -/
theorem heapDeriv_twice_false : ¬ ∀ (s : AStore ℚ) (o : HOp ℚ), s.Valid →
    (o.call s.objs s.heap).1.map (HScalar.load (o.call s.objs s.heap).2.exps) = o.val s.values := by
  intro h
  have h1 := h (wEmpty.run [.lit (.mono (wm1 1 0 3)), .poly [0, 0]]) (.deriv 1 wx) (by
    intro e he x hx
    revert e x
    decide +kernel)
  revert h1
  decide +kernel

end Verif
