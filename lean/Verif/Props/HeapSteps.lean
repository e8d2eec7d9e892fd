import Verif.Lemmas.HeapStepsArith
import Verif.Lemmas.HeapStepsRun
import Verif.Props.HeapArith

/-!
# C68: goroutines may do arithmetic on shared expressions

Any number of goroutines, each with its own program of calls on expressions that they share, interleaved one
memory access at a time: every goroutine gets exactly the outcomes of its program on values, no shared
exponent slice is ever written, no goroutine blocks, and all of them end.  `DerivativeWrt` is allowed by
variables that occur with exponent at most one; with a higher exponent the claim is false.
-/

set_option linter.unusedSectionVars false

namespace Verif

open GoNum

variable {R : Type} [GoNum R] {α β A B : Type}

/-! ## One call -/

theorem sMonoDerivative_ref (v : Var R) {m : HMono R} {n : Mono R} {K : View} (hm : KRep LM K m n)
    (hs : n.afterDerivative v = n) : CRef LS (sMonoDerivative v m) K (n.derivative v) := by
  unfold sMonoDerivative Mono.derivative
  refine CRef.readBind (fun h hh => congrArg Mono.check (hm.at hh)) fun _ _ => ?_
  refine CRef.readBind (fun h hh => rfl) fun _ _ => ?_
  rw [hm.vars, hm.coeff]
  have hl : ∀ h : Heap R, K.Holds h.exps → h.exps.getD m.addr [] = n.exps := fun h hh =>
    congrArg Mono.exps (hm.at hh)
  unfold Mono.afterDerivative at hs
  cases hf : findVar v n.vars with
  | none => exact CRef.pure KRep.k
  | some i =>
    rw [hf] at hs
    dsimp only at hs ⊢
    cases he : n.exps[i]? with
    | none =>
      refine CRef.readBind (y := .error .index) (g := fun _ => Except.error .index) (fun h hh => ?_)
        fun a ha => by cases ha
      rw [hl h hh, he]
    | some e =>
      refine CRef.readOk (a := e) (fun h hh => by rw [hl h hh, he]) ?_
      have h1 : e = 1 := by
        by_contra h1
        rw [he, if_neg (by simpa using h1)] at hs
        have h2 := congrArg (fun x : Mono R => x.exps[i]?) hs
        simp only [List.getElem?_modify, he] at h2
        simp at h2
      subst h1
      simp only [true_and]
      by_cases h2 : n.vars.length = 1
      · simp only [if_pos h2]
        exact CRef.pure KRep.k
      · simp only [if_neg h2, if_true]
        refine CRef.readOk (a := n.exps) (fun h hh => by rw [hl h hh]) ?_
        intro h hh hf
        exact ⟨congrArg (fun x => Except.ok (Scalar.mono x)) (new_known hf).load,
          fun b hb => by cases hb; exact (new_known (c := n.coeff) (vs := n.vars.eraseIdx i) hf).toMono.known⟩

theorem sDerivStep_ref (v : Var R) {m : HMono R} {n : Mono R} {K : View} (hm : KRep LM K m n)
    (hs : n.afterDerivative v = n) : CRef LM.list (sDerivStep v m) K (stepVal v n) := by
  unfold sDerivStep stepVal
  rw [hm.vars]
  split
  · exact CRef.pure KRep.nil
  · refine CRef.bind (sMonoDerivative_ref v hm hs) fun b z K' _ _ hb => ?_
    cases b with
    | k c =>
      rw [hb.k_inv]
      dsimp only
      split
      · exact CRef.pure KRep.nil
      · intro h hh hf
        have h1 := (new_known (c := c) (vs := []) (l := []) hf).cons KRep.nil
        exact ⟨congrArg Except.ok h1.load, fun b hb => by cases hb; exact h1.known⟩
    | var w => rw [hb.var_inv]; exact CRef.panic
    | mono d =>
      obtain ⟨d', rfl, hd⟩ := KRep.mono_iff.mp hb
      exact CRef.pure (hd.cons KRep.nil)
    | poly p =>
      obtain ⟨q, rfl, hp⟩ := hb.polyP
      exact CRef.panic

theorem KRep.flatten {L : Loader α A} {K : View} {l : List (List α)} {xs : List (List A)}
    (hl : KRep L.list.list K l xs) : KRep L.list K l.flatten xs.flatten := by
  induction l generalizing xs with
  | nil => rw [hl.nil_inv]; exact KRep.nil
  | cons a l ih =>
    obtain ⟨y, ys, rfl, h1, h2⟩ := hl.cons_inv
    rw [List.flatten_cons, List.flatten_cons]
    exact h1.append (ih h2)

theorem CRef.traverseMem {L : Loader α A} {M : Loader β B} {f : α → SM R β} {g : A → Go B} (l : List α) :
    ∀ {K : View} {xs : List A}, KRep L.list K l xs →
    (∀ a, ∀ x ∈ xs, ∀ K' : View, K ≤ K' → KRep L K' a x → CRef M (f a) K' (g x)) →
    CRef M.list (SM.traverse f l) K (xs.mapM g) := by
  induction l with
  | nil =>
    intro K xs hl _
    rw [hl.nil_inv]
    exact CRef.pure KRep.nil
  | cons a l ih =>
    intro K xs hl hf
    obtain ⟨y, ys, rfl, h1, h2⟩ := hl.cons_inv
    rw [List.mapM_cons]
    refine CRef.bind (hf a y (by simp) K le_rfl h1) fun b z K' hp _ hb => ?_
    refine CRef.bind (ih (h2.mono hp) fun a' x' hx' K'' hp' => hf a' x' (by simp [hx']) K'' (hp.trans hp'))
      fun bs zs K'' hp' _ hbs => ?_
    exact CRef.pure ((hb.mono hp').cons hbs)

theorem sPolyDerivative_ref (v : Var R) {p : HPoly R} {q : Poly R} {K : View} (hp : KRep LP K p q)
    (hs : ∀ n ∈ q.monos, n.afterDerivative v = n) : CRef LS (sPolyDerivative v p) K (q.derivative v) := by
  have hq : q.derivative v = q.check >>= fun _ => v.check >>= fun _ => q.monos.mapM (stepVal v) >>= fun ds =>
      .ok (if ds.flatten.isEmpty then .k GoNum.zero else .poly ⟨ds.flatten⟩) := by
    unfold Poly.derivative
    cases q.check with
    | error e => rfl
    | ok _ =>
      cases v.check with
      | error e => rfl
      | ok _ =>
        simp only [Go.ok_bind]
        rw [stepVal_fold]
        cases q.monos.mapM (stepVal v) with
        | error e => rfl
        | ok ds =>
          simp only [Go.map_ok, Go.ok_bind, List.nil_append, Go.pure_eq]
          split <;> rfl
  rw [hq]
  unfold sPolyDerivative
  refine CRef.readBind (fun h hh => congrArg Poly.check (hp.at hh)) fun _ _ => ?_
  refine CRef.readBind (fun h hh => rfl) fun _ _ => ?_
  refine CRef.bind (CRef.traverseMem p.monos hp.monos fun a x hx K' _ ha => sDerivStep_ref v ha (hs x hx))
    fun ds zs K' _ _ hds => ?_
  rw [hds.flatten.isEmpty]
  split
  · exact CRef.pure KRep.k
  · exact CRef.pure hds.flatten.toPoly

theorem sScalarDerivative_ref (v : Var R) {a : HScalar R} {x : Scalar R} {K : View} (ha : KRep LS K a x)
    (hc : x.Canon) (hl : x.LinearIn v) : CRef LS (sScalarDerivative v a) K (x.derivative v) := by
  cases a with
  | k c => rw [ha.k_inv]; exact CRef.pure KRep.k
  | var w =>
    rw [ha.var_inv]
    unfold sScalarDerivative Scalar.derivative
    refine CRef.readBind (fun h hh => rfl) fun _ _ => ?_
    refine CRef.readBind (fun h hh => rfl) fun _ _ => ?_
    split
    · exact CRef.pure KRep.k
    · exact CRef.pure KRep.k
  | mono m =>
    obtain ⟨n, rfl, hm⟩ := KRep.mono_iff.mp ha
    exact sMonoDerivative_ref v hm (Mono.afterDerivative_small hc hl)
  | poly p =>
    obtain ⟨q, rfl, hp⟩ := ha.polyP
    exact sPolyDerivative_ref v hp fun n hn => Mono.afterDerivative_small (hc.all n hn) (hl n hn)

theorem sObj_bind {γ C : Type} {N : Loader γ C} {objs : List (HScalar R)} {xs : List (Scalar R)} {K : View}
    (hs : KRep LS.list K objs xs) (i : ℕ) {f : HScalar R → SM R γ} {g : Scalar R → Go C}
    (h2 : ∀ a x, xs[i]? = some x → KRep LS K a x → CRef N (f a) K (g x)) :
    CRef N (sObj objs i >>= f) K (valObj xs i >>= g) := by
  unfold sObj valObj
  rcases hs.getElem? i with ⟨h3, h4⟩ | ⟨a, x, h3, h4, h5⟩
  · rw [h3, h4]
    exact CRef.readBind (g := g') (fun _ _ => rfl) fun a ha => by cases ha
  · rw [h3, h4]
    exact CRef.readOk (fun _ _ => rfl) (h2 a x h4 h5)
where g' {C : Type} : HScalar R → Go C := fun _ => .error .index

theorem sLit_ref (e : Scalar R) (K : View) : CRef LS (sLit e) K (.ok e) := by
  cases e with
  | k c => exact CRef.pure KRep.k
  | var v => exact CRef.pure KRep.var
  | mono m => exact CRef.bindOk (sNew_ref m K) fun x h' _ hx => CRef.pure hx.toMono
  | poly p =>
    have h1 := CRef.traverse (M := LM) (f := sNew) (g := fun m => .ok m) p.monos
      (KRep.constList (h := K) p.monos) fun a x h' _ ha => by
        obtain rfl := ha.const
        exact sNew_ref a h'
    rw [mapM_pure_map (f := fun m => m), List.map_id'] at h1
    exact CRef.bindOk h1 fun ms h' _ hms => CRef.pure hms.toPoly

theorem steps_ref {objs : List (HScalar R)} {xs : List (Scalar R)} {K : View} (hs : KRep LS.list K objs xs)
    (o : HOp R) (hst : o.Steady xs) : CRef LS (o.steps objs) K (o.val xs) := by
  cases o with
  | lit e => exact sLit_ref e K
  | poly is =>
    refine CRef.bind (M := LM.list) (CRef.traverse is (KRep.constList is)
      fun a x h' he ha => ?_) fun ms z h' _ _ hms => CRef.pure hms.toPoly
    obtain rfl := ha.const
    refine sObj_bind (hs.mono he) a fun e y _ hy => ?_
    unfold sAsMono valAsMono
    cases e with
    | k c => rw [hy.k_inv]; exact CRef.panic
    | var c => rw [hy.var_inv]; exact CRef.panic
    | mono m =>
      obtain ⟨n, rfl, hm⟩ := KRep.mono_iff.mp hy
      exact CRef.pure hm
    | poly p =>
      obtain ⟨q, rfl, hp⟩ := hy.polyP
      exact CRef.panic
  | copy i =>
    have h1 : valObj xs i = valObj xs i >>= fun x => .ok x := by cases valObj xs i <;> rfl
    show CRef LS _ K (valObj xs i)
    rw [h1]
    refine sObj_bind hs i fun e y _ hy => ?_
    cases e with
    | k c => exact CRef.pure hy
    | var c => exact CRef.pure hy
    | mono m =>
      obtain ⟨n, rfl, hm⟩ := KRep.mono_iff.mp hy
      exact CRef.bindOk (sCopy_ref hm) fun x h' _ hx => CRef.pure hx.toMono
    | poly p => exact CRef.pure hy
  | plus i j =>
    exact sObj_bind hs i fun a x _ ha => sObj_bind hs j fun b y _ hb => sPlus_ref ha hb
  | minus i j =>
    exact sObj_bind hs i fun a x _ ha => sObj_bind hs j fun b y _ hb => sMinus_ref ha hb
  | mul i j =>
    exact sObj_bind hs i fun a x _ ha => sObj_bind hs j fun b y _ hb => sMul_ref ha hb
  | power i n => exact sObj_bind hs i fun a x _ ha => sPower_ref ha n
  | simp i => exact sObj_bind hs i fun a x _ ha => sSimplified_ref ha
  | subst i v j =>
    exact sObj_bind hs i fun a x _ ha => sObj_bind hs j fun b y _ hb => sSubstitute_ref v ha hb
  | substMap i sm =>
    refine sObj_bind hs i fun a x _ ha => ?_
    refine CRef.bind (M := LKV.list) (CRef.traverse sm (KRep.constList sm)
      fun kv kx h' he hk => ?_) fun m z h' he _ hm => sSubstMap_ref (ha.mono he) hm
    obtain rfl := hk.const
    exact sObj_bind (hs.mono he) kv.2 fun e y _ hy =>
      CRef.pure ⟨hy.known, by rw [← hy.load]; rfl⟩
  | deriv i v =>
    refine sObj_bind hs i fun a x hx ha => ?_
    obtain ⟨hc, hl⟩ := hst x hx
    exact sScalarDerivative_ref v ha hc hl

/-! ## One goroutine -/

/-- Outcomes: values or panics. -/
def Loader.outcome (L : Loader α A) : Loader (Go α) (Go A) where
  addrs
    | .ok a => L.addrs a
    | .error _ => []
  load h r := r.map (L.load h)
  congr {h h' a} hx := by
    cases a with
    | ok a => exact congrArg Except.ok (L.congr hx)
    | error e => rfl

theorem CRefW.attempt {M : Loader β B} {x : SM R β} : ∀ {K : View} {W : List ℕ} {y : Go B}, CRefW M x K W y →
    CRefW M.outcome x.attempt K W (.ok y) := by
  induction x with
  | ret r =>
    intro K W y h
    refine ⟨congrArg Except.ok h.1, fun b hb => ?_⟩
    cases hb
    cases r with
    | ok a => exact h.2 a rfl
    | error e => exact fun x hx => (by cases hx)
  | read k ih => exact fun h g hg => ih g (h g hg)
  | alloc l k ih => exact fun h g hg hf => ih _ (h g hg hf)
  | write a f k ih => exact fun h => ⟨h.1, ih h.2⟩

theorem threadProg_ref (ops : List (HOp R)) : ∀ {objs : List (HScalar R)} {xs : List (Scalar R)} {K : View},
    KRep LS.list K objs xs → SteadyRun xs ops →
    CRef LS.outcome.list (threadProg objs ops) K (.ok (valObserve xs ops).1) := by
  induction ops with
  | nil => exact fun _ _ => CRef.pure KRep.nil
  | cons o os ih =>
    intro objs xs K hs hst
    refine CRef.bindOk (CRefW.attempt (steps_ref hs o hst.1)) fun r K' hK hr => ?_
    have hkeep : KRep LS.list K' (keep objs r) (match o.val xs with | .ok y => xs ++ [y] | .error _ => xs) := by
      have h1 := hr.load
      cases r with
      | error e =>
        rw [← h1]
        exact hs.mono hK
      | ok e =>
        rw [← h1]
        exact (hs.mono hK).append (KRep.cons ⟨hr.known, rfl⟩ KRep.nil)
    exact CRef.bindOk (ih hkeep hst.2) fun rs K'' hK' hrs => CRef.pure ((hr.mono hK').cons hrs)

/-! ## All goroutines -/

/-- What holds at any time: every goroutine is on its way to its outcome, given its own slices and the shared
ones, and nobody else can reach its own slices. -/
structure SysInv (M : Loader β B) (h0 : Heap R) (ys : List (Go B)) (s : Sys R β) : Prop where
  ext : h0.exps <+: s.heap.exps
  len : s.threads.length = ys.length
  inv : ∃ (K : ℕ → View) (O : ℕ → List ℕ),
    (∀ i, (K i).Fits s.heap.exps ∧ (K i).Holds s.heap.exps) ∧
    (∀ i, ∀ a ∈ O i, h0.exps.length ≤ a ∧ a < s.heap.exps.length) ∧
    (∀ i j, i ≠ j → ∀ a ∈ O i, a ∉ (K j).known) ∧
    ∀ i t, s.threads[i]? = some t → (∀ g ∈ t.seen, (K i).Holds g.exps) ∧
      ∃ W, W ⊆ O i ∧ ∃ y, ys[i]? = some y ∧ CRefW M t.prog (K i) W y

theorem torn_holds {K : View} {seen : List (Heap R)} {g : Heap R} (hs : ∀ h ∈ seen, K.Holds h.exps)
    (hg : Torn seen g) : K.Holds g.exps := by
  intro a ha
  refine List.ext_getElem? fun i => ?_
  obtain ⟨h, hh, he⟩ := hg a i
  rw [he, hs h hh a ha]

theorem getD_modify_self {l : ExpHeap} {a : ℕ} (f : List Int → List Int) (h : a < l.length) :
    (l.modify a f).getD a [] = f (l.getD a []) := by
  rw [List.getD_eq_getElem?_getD, List.getD_eq_getElem?_getD, List.getElem?_modify, List.getElem?_eq_getElem h]
  simp

theorem after_get {ts : List (Thread R β)} {i j : ℕ} {p : SM R β} {h : Heap R} {t : Thread R β}
    (ht : (Sys.after ts i p h)[j]? = some t) :
    (j = i ∧ t = ⟨p, [h]⟩) ∨ (j ≠ i ∧ ∃ t', ts[j]? = some t' ∧ t = { t' with seen := h :: t'.seen }) := by
  unfold Sys.after at ht
  rw [List.getElem?_set] at ht
  split at ht
  · next e =>
    split at ht
    · cases ht
      exact Or.inl ⟨e.symm, rfl⟩
    · cases ht
  · next e =>
    rw [List.getElem?_map] at ht
    obtain ⟨t', h1, h2⟩ := Option.map_eq_some_iff.mp ht
    exact Or.inr ⟨fun h => e h.symm, t', h1, h2.symm⟩

theorem SysInv.step {M : Loader β B} {h0 : Heap R} {ys : List (Go B)} {s s' : Sys R β} (hi : SysInv M h0 ys s)
    (hs : s.Step s') : SysInv M h0 ys s' := by
  obtain ⟨i, t, p, h', ht, ha⟩ := hs
  obtain ⟨hext, hlen, K, O, hK, hO, hdis, hth⟩ := hi
  obtain ⟨hseen, W, hW, y, hy, hc⟩ := hth i t ht
  have hlen' : (Sys.after s.threads i p h').length = ys.length := by simp [Sys.after, hlen]
  obtain ⟨tp, ts⟩ := t
  dsimp only at ha hc hseen
  cases ha with
  | read k g hg =>
    refine ⟨hext, hlen', K, O, hK, hO, hdis, fun j u hu => ?_⟩
    rcases after_get hu with ⟨rfl, rfl⟩ | ⟨hj, t', ht', rfl⟩
    · refine ⟨fun g' hg' => ?_, W, hW, y, hy, hc g (torn_holds hseen hg)⟩
      rw [List.mem_singleton.mp hg']
      exact (hK j).2
    · obtain ⟨h1, h2⟩ := hth j t' ht'
      refine ⟨fun g' hg' => ?_, h2⟩
      rcases List.mem_cons.mp hg' with rfl | hg'
      · exact (hK j).2
      · exact h1 g' hg'
  | alloc l k =>
    have hlt : s.heap.exps.length < (s.heap.exps ++ [l]).length := by simp
    refine ⟨hext.trans (List.prefix_append _ _), hlen',
      fun j => if j = i then (K i).add s.heap.exps l (hK i).1 else K j,
      fun j => if j = i then s.heap.exps.length :: O i else O j, fun j => ?_, fun j => ?_, fun j j' hjj => ?_,
      fun j u hu => ?_⟩
    · by_cases hj : j = i
      · subst hj
        simp only [if_true]
        exact ⟨fun a ha => (View.add _ _ l _).wf a ha, fun a ha => rfl⟩
      · simp only [if_neg hj]
        exact ⟨fun a ha => ((hK j).1 a ha).trans hlt,
          fun a ha => (getD_append_left ((hK j).1 a ha)).trans ((hK j).2 a ha)⟩
    · intro a ha
      by_cases hj : j = i
      · subst hj
        simp only [if_true] at ha
        rcases List.mem_cons.mp ha with rfl | ha
        · exact ⟨hext.length_le, hlt⟩
        · exact ⟨(hO j a ha).1, (hO j a ha).2.trans hlt⟩
      · simp only [if_neg hj] at ha
        exact ⟨(hO j a ha).1, (hO j a ha).2.trans hlt⟩
    · intro a ha
      by_cases hj : j = i
      · subst hj
        simp only [if_true] at ha
        simp only [if_neg (Ne.symm hjj)]
        rcases List.mem_cons.mp ha with rfl | ha
        · exact fun hk => absurd ((hK j').1 _ hk) (by simp)
        · exact hdis j j' hjj a ha
      · simp only [if_neg hj] at ha
        by_cases hj' : j' = i
        · subst hj'
          simp only [if_true]
          intro hk
          rcases List.mem_cons.mp hk with rfl | hk
          · exact absurd (hO j _ ha).2 (by simp)
          · exact hdis j j' hjj a ha hk
        · simp only [if_neg hj']
          exact hdis j j' hjj a ha
    · rcases after_get hu with ⟨rfl, rfl⟩ | ⟨hj, t', ht', rfl⟩
      · simp only [if_true]
        refine ⟨fun g' hg' => ?_, _, List.cons_subset_cons _ hW, y, hy, hc s.heap (hK j).2 (hK j).1⟩
        rw [List.mem_singleton.mp hg']
        exact fun a ha => rfl
      · simp only [if_neg hj]
        obtain ⟨h1, h2⟩ := hth j t' ht'
        refine ⟨fun g' hg' => ?_, h2⟩
        rcases List.mem_cons.mp hg' with rfl | hg'
        · exact fun a ha => (getD_append_left ((hK j).1 a ha)).trans ((hK j).2 a ha)
        · exact h1 g' hg'
  | write a f k =>
    obtain ⟨haW, hc⟩ := hc
    have haO := hW haW
    have hother : ∀ j, j ≠ i → (K j).Holds (s.heap.exps.modify a f) := fun j hj x hx =>
      (getD_modify_ne (b := x) f fun e => hdis i j (Ne.symm hj) a haO (by rw [e]; exact hx)).trans ((hK j).2 x hx)
    have hself : ((K i).write a f).Holds (s.heap.exps.modify a f) := by
      intro x hx
      by_cases hxa : a = x
      · subst hxa
        show _ = ((K i).base.modify a f).getD a []
        rw [getD_modify_self f ((hK i).1 a hx), getD_modify_self f ((K i).wf a hx), (hK i).2 a hx]
      · show _ = ((K i).base.modify a f).getD x []
        rw [getD_modify_ne f hxa, getD_modify_ne f hxa, (hK i).2 x hx]
    refine ⟨?_, hlen', fun j => if j = i then (K i).write a f else K j, O, fun j => ?_, fun j b hb => ?_,
      fun j j' hjj b hb => ?_, fun j u hu => ?_⟩
    · refine prefix_of_getD (by simpa using hext.length_le) fun x hx => ?_
      rw [getD_modify_ne f fun e => absurd (hO i a haO).1 (by omega)]
      exact getD_prefix hext hx
    · by_cases hj : j = i
      · subst hj
        simp only [if_true]
        exact ⟨fun x hx => by simpa using (hK j).1 x hx, hself⟩
      · simp only [if_neg hj]
        exact ⟨fun x hx => by simpa using (hK j).1 x hx, hother j hj⟩
    · simpa using hO j b hb
    · by_cases hj' : j' = i
      · subst hj'
        simp only [if_true]
        exact hdis j j' hjj b hb
      · simp only [if_neg hj']
        exact hdis j j' hjj b hb
    · rcases after_get hu with ⟨rfl, rfl⟩ | ⟨hj, t', ht', rfl⟩
      · simp only [if_true]
        refine ⟨fun g' hg' => ?_, W, hW, y, hy, hc⟩
        rw [List.mem_singleton.mp hg']
        exact hself
      · simp only [if_neg hj]
        obtain ⟨h1, h2⟩ := hth j t' ht'
        refine ⟨fun g' hg' => ?_, h2⟩
        rcases List.mem_cons.mp hg' with rfl | hg'
        · exact hother j hj
        · exact h1 g' hg'

theorem SysInv.reach {M : Loader β B} {h0 : Heap R} {ys : List (Go B)} {s s' : Sys R β} (hi : SysInv M h0 ys s)
    (hs : s.Reach s') : SysInv M h0 ys s' := by
  induction hs with
  | refl => exact hi
  | tail _ h ih => exact ih.step h

/-- The slices that exist at the start. -/
def View.start (h : ExpHeap) : View := ⟨h, List.range h.length, fun _ ha => List.mem_range.mp ha⟩

theorem SysInv.start {M : Loader β B} {h0 : Heap R} {ps : List (SM R β)} {ys : List (Go B)}
    (hlen : ps.length = ys.length)
    (hp : ∀ (i : ℕ) p y, ps[i]? = some p → ys[i]? = some y → CRef M p (View.start h0.exps) y) :
    SysInv M h0 ys (Sys.start h0 ps) := by
  refine ⟨List.prefix_rfl, by simp [Sys.start, hlen], fun _ => View.start h0.exps, fun _ => [],
    fun i => ⟨fun a ha => List.mem_range.mp ha, fun a ha => rfl⟩, fun i a ha => (by cases ha),
    fun i j _ a ha => (by cases ha), fun i t ht => ?_⟩
  unfold Sys.start at ht
  rw [List.getElem?_map] at ht
  obtain ⟨p, h1, rfl⟩ := Option.map_eq_some_iff.mp ht
  refine ⟨fun g hg => ?_, [], List.nil_subset _, ?_⟩
  · rw [List.mem_singleton.mp hg]
    exact fun a ha => rfl
  · have hi : i < ys.length := hlen ▸ (List.getElem?_eq_some_iff.mp h1).1
    exact ⟨ys[i], List.getElem?_eq_getElem hi, hp i p _ h1 (List.getElem?_eq_getElem hi)⟩

/-- A goroutine: the expressions it is given, and its calls. -/
abbrev Job (R : Type) := List (HScalar R) × List (HOp R)

/-- The goroutines at the start. -/
def jobsStart (h0 : Heap R) (js : List (Job R)) : Sys R (List (Go (HScalar R))) :=
  Sys.start h0 (js.map fun j => threadProg j.1 j.2)

/-- The expressions given exist in memory, and `DerivativeWrt` is called only on well formed expressions in
which the variable has exponent at most one. -/
def Job.Fine (h0 : Heap R) (j : Job R) : Prop :=
  (∀ e ∈ j.1, e.Valid h0.exps) ∧ SteadyRun (j.1.map (HScalar.load h0.exps)) j.2

/-- Goroutines without `DerivativeWrt`. -/
def Job.Arith (h0 : Heap R) (j : Job R) : Prop := (∀ e ∈ j.1, e.Valid h0.exps) ∧ ∀ o ∈ j.2, o.Arith

theorem Job.Arith.fine {h0 : Heap R} {j : Job R} (h : Job.Arith h0 j) : Job.Fine h0 j :=
  ⟨h.1, steadyRun_arith h.2 _⟩

theorem jobs_inv {h0 : Heap R} {js : List (Job R)} (hj : ∀ j ∈ js, Job.Fine h0 j)
    {s : Sys R (List (Go (HScalar R)))} (hs : (jobsStart h0 js).Reach s) :
    SysInv LS.outcome.list h0 (js.map fun j => .ok (valObserve (j.1.map (HScalar.load h0.exps)) j.2).1) s := by
  refine SysInv.reach (SysInv.start (by simp) fun i p y hp hy => ?_) hs
  rw [List.getElem?_map] at hp hy
  obtain ⟨j, h1, rfl⟩ := Option.map_eq_some_iff.mp hp
  rw [h1] at hy
  cases hy
  obtain ⟨h2, h3⟩ := hj j (List.mem_of_getElem? h1)
  refine threadProg_ref j.2 ⟨fun x hx => ?_, rfl⟩ h3
  obtain ⟨e, he, hx⟩ := List.mem_flatMap.mp hx
  exact List.mem_range.mpr (h2 e he x hx)

/-! ## The claims -/

/-- No slice that existed at the start is ever changed. -/
theorem threads_shared_partial {h0 : Heap R} {js : List (Job R)} (hj : ∀ j ∈ js, Job.Fine h0 j)
    {s : Sys R (List (Go (HScalar R)))} (hs : (jobsStart h0 js).Reach s) : h0.exps <+: s.heap.exps :=
  (jobs_inv hj hs).ext

/-- So every expression that existed at the start stands for what it stood for, at any time. -/
theorem threads_unchanged_partial {h0 : Heap R} {js : List (Job R)} (hj : ∀ j ∈ js, Job.Fine h0 j)
    {s : Sys R (List (Go (HScalar R)))} (hs : (jobsStart h0 js).Reach s) {e : HScalar R} (he : e.Valid h0.exps) :
    e.load s.heap.exps = e.load h0.exps := HScalar.load_prefix he (threads_shared_partial hj hs)

/-- A goroutine that is about to write writes to a slice made after the start. -/
theorem threads_write_partial {h0 : Heap R} {js : List (Job R)} (hj : ∀ j ∈ js, Job.Fine h0 j)
    {s : Sys R (List (Go (HScalar R)))} (hs : (jobsStart h0 js).Reach s)
    {t : Thread R (List (Go (HScalar R)))} (ht : t ∈ s.threads) {a : ℕ} {f : List Int → List Int}
    {k : SM R (List (Go (HScalar R)))} (hp : t.prog = .write a f k) : h0.exps.length ≤ a := by
  obtain ⟨_, _, K, O, _, hO, _, hth⟩ := jobs_inv hj hs
  obtain ⟨i, hi⟩ := List.mem_iff_getElem?.mp ht
  obtain ⟨-, W, hW, y, -, hc⟩ := hth i t hi
  rw [hp] at hc
  exact (hO i a (hW hc.1)).1

/-- Two goroutines never work on the same slice if one of them writes: when one is about to write, what the
others do next is right whatever the slice contains. -/
theorem threads_race_partial {h0 : Heap R} {js : List (Job R)} (hj : ∀ j ∈ js, Job.Fine h0 j)
    {s : Sys R (List (Go (HScalar R)))} (hs : (jobsStart h0 js).Reach s)
    {t : Thread R (List (Go (HScalar R)))} {i : ℕ} (ht : s.threads[i]? = some t) {a : ℕ} {f : List Int → List Int}
    {k : SM R (List (Go (HScalar R)))} (hp : t.prog = .write a f k) (l : List Int) :
    ∃ K : ℕ → View, ∀ j, j ≠ i → ∀ u, s.threads[j]? = some u → (K j).Holds (s.heap.exps.set a l) ∧
      ∃ W, ∃ x, js[j]? = some x ∧ CRefW LS.outcome.list u.prog (K j) W
        (.ok (valObserve (x.1.map (HScalar.load h0.exps)) x.2).1) := by
  obtain ⟨_, _, K, O, hK, hO, hdis, hth⟩ := jobs_inv hj hs
  obtain ⟨-, W, hW, y, -, hc⟩ := hth i t ht
  rw [hp] at hc
  refine ⟨K, fun j hji u hu => ⟨fun x hx => ?_, ?_⟩⟩
  · have hne : a ≠ x := fun e => hdis i j (Ne.symm hji) a (hW hc.1) (by rw [e]; exact hx)
    rw [← (hK j).2 x hx, List.getD_eq_getElem?_getD, List.getD_eq_getElem?_getD, List.getElem?_set_ne hne]
  · obtain ⟨-, W, -, y, hy, hc⟩ := hth j u hu
    rw [List.getElem?_map] at hy
    obtain ⟨x, hx, rfl⟩ := Option.map_eq_some_iff.mp hy
    exact ⟨W, x, hx, hc⟩

/-- A goroutine that has ended has the outcomes of its program on values; they keep standing for these
values while others go on. -/
theorem threads_result_partial {h0 : Heap R} {js : List (Job R)} (hj : ∀ j ∈ js, Job.Fine h0 j)
    {s : Sys R (List (Go (HScalar R)))} (hs : (jobsStart h0 js).Reach s) {i : ℕ} {objs : List (HScalar R)}
    {ops : List (HOp R)} (hi : js[i]? = some (objs, ops)) {t : Thread R (List (Go (HScalar R)))}
    (ht : s.threads[i]? = some t) {r : Go (List (Go (HScalar R)))} (hr : t.prog = .ret r) :
    ∃ rs, r = .ok rs ∧ rs.map (Except.map (HScalar.load s.heap.exps)) =
      (valObserve (objs.map (HScalar.load h0.exps)) ops).1 := by
  obtain ⟨_, _, K, O, hK, _, _, hth⟩ := jobs_inv hj hs
  obtain ⟨-, W, -, y, hy, hc⟩ := hth i t ht
  rw [List.getElem?_map, hi] at hy
  cases hy
  rw [hr] at hc
  obtain ⟨h1, h2⟩ := hc
  cases r with
  | error e => cases h1
  | ok rs =>
    refine ⟨rs, rfl, ?_⟩
    have h3 := KRep.at (L := LS.outcome.list) ⟨h2 rs rfl, Except.ok.inj h1⟩ (hK i).2
    exact h3

/-! ## All goroutines end -/

/-- The programs after one access of one of them. -/
inductive ProgStep {α : Type} : List (SM R α) → List (SM R α) → Prop
  | head {seen : List (Heap R)} {h h' : Heap R} {p p' : SM R α} {ps : List (SM R α)} :
    SM.Access seen h p p' h' → ProgStep (p' :: ps) (p :: ps)
  | tail {p : SM R α} {ps ps' : List (SM R α)} : ProgStep ps' ps → ProgStep (p :: ps') (p :: ps)

theorem access_acc {α : Type} (p : SM R α) : ∀ (ps : List (SM R α)), Acc ProgStep ps →
    Acc ProgStep (p :: ps) := by
  induction p with
  | ret r =>
    intro ps hps
    induction hps with
    | intro ps _ ih =>
      refine Acc.intro _ fun q hq => ?_
      cases hq with
      | head h => cases h
      | tail h => exact ih _ h
  | read k ih0 =>
    intro ps hps
    induction hps with
    | intro ps h ih =>
      refine Acc.intro _ fun q hq => ?_
      cases hq with
      | head h' => cases h'; exact ih0 _ _ ⟨ps, h⟩
      | tail h => exact ih _ h
  | alloc l k ih0 =>
    intro ps hps
    induction hps with
    | intro ps h ih =>
      refine Acc.intro _ fun q hq => ?_
      cases hq with
      | head h' => cases h'; exact ih0 _ _ ⟨ps, h⟩
      | tail h => exact ih _ h
  | write a f k ih0 =>
    intro ps hps
    induction hps with
    | intro ps h ih =>
      refine Acc.intro _ fun q hq => ?_
      cases hq with
      | head h' => cases h'; exact ih0 _ ⟨ps, h⟩
      | tail h => exact ih _ h

theorem progs_acc {α : Type} (ps : List (SM R α)) : Acc ProgStep ps := by
  induction ps with
  | nil => exact Acc.intro _ fun q hq => (by cases hq)
  | cons p ps ih => exact access_acc p ps ih

theorem progStep_set {α : Type} {p p' : SM R α} {seen : List (Heap R)} {h h' : Heap R}
    (ha : SM.Access seen h p p' h') : ∀ {ps : List (SM R α)} {i : ℕ}, ps[i]? = some p → ProgStep (ps.set i p') ps
  | [], i, hi => by simp at hi
  | q :: ps, 0, hi => by
    simp only [List.getElem?_cons_zero, Option.some.injEq] at hi
    subst hi
    exact ProgStep.head ha
  | q :: ps, i + 1, hi => by
    simp only [List.getElem?_cons_succ] at hi
    exact ProgStep.tail (progStep_set ha hi)

theorem step_progs {α : Type} {s s' : Sys R α} (h : s.Step s') :
    ProgStep (s'.threads.map (·.prog)) (s.threads.map (·.prog)) := by
  obtain ⟨i, t, p, h', ht, ha⟩ := h
  have h1 : (Sys.after s.threads i p h').map (·.prog) = (s.threads.map (·.prog)).set i p := by
    simp [Sys.after, List.map_set, Function.comp_def]
  rw [h1]
  exact progStep_set ha (by rw [List.getElem?_map, ht]; rfl)

/-- There is no infinite execution, whatever the goroutines do. -/
theorem threads_terminate {α : Type} (s : Sys R α) : Acc (fun s' s => s.Step s') s := by
  have h : ∀ ps : List (SM R α), Acc ProgStep ps → ∀ s : Sys R α, s.threads.map (·.prog) = ps →
      Acc (fun s' s => s.Step s') s := by
    intro ps hps
    induction hps with
    | intro ps _ ih =>
      intro s hs
      exact Acc.intro _ fun s' hs' => ih _ (hs ▸ step_progs hs') s' rfl
  exact h _ (progs_acc _) s rfl

theorem no_infinite {α : Type} (f : ℕ → Sys R α) : ¬ ∀ n, (f n).Step (f (n + 1)) := by
  intro hf
  have h : ∀ s : Sys R α, Acc (fun s' s => s.Step s') s → ∀ n, f n ≠ s := by
    intro s hs
    induction hs with
    | intro s _ ih =>
      intro n hn
      exact ih (f (n + 1)) (hn ▸ hf n) (n + 1) rfl
  exact h _ (threads_terminate (f 0)) 0 rfl

theorem heap_seen {α : Type} {s s' : Sys R α} (hs : ∀ t ∈ s.threads, s.heap ∈ t.seen) (h : s.Reach s') :
    ∀ t ∈ s'.threads, s'.heap ∈ t.seen := by
  induction h with
  | refl => exact hs
  | tail _ h ih =>
    obtain ⟨i, t, p, h', ht, ha⟩ := h
    intro u hu
    obtain ⟨j, hj⟩ := List.mem_iff_getElem?.mp hu
    rcases after_get hj with ⟨_, rfl⟩ | ⟨_, t', _, rfl⟩ <;> simp

/-- No goroutine waits for another: as long as it has not ended, it can take its next step. -/
theorem threads_progress {h0 : Heap R} {js : List (Job R)} {s : Sys R (List (Go (HScalar R)))}
    (hs : (jobsStart h0 js).Reach s) {i : ℕ} {t : Thread R (List (Go (HScalar R)))} (ht : s.threads[i]? = some t)
    (hr : ∀ r, t.prog ≠ .ret r) : ∃ p h, SM.Access t.seen s.heap t.prog p h ∧
      s.Step ⟨h, Sys.after s.threads i p h⟩ := by
  have h1 : s.heap ∈ t.seen := heap_seen (fun t ht => by
    simp only [jobsStart, Sys.start, List.map_map, List.mem_map] at ht
    obtain ⟨j, -, rfl⟩ := ht
    simp [jobsStart, Sys.start]) hs t (List.mem_of_getElem? ht)
  have h2 : ∃ p h, SM.Access t.seen s.heap t.prog p h := by
    obtain ⟨tp, ts⟩ := t
    cases tp with
    | ret r => exact absurd rfl (hr r)
    | read k => exact ⟨_, _, .read k s.heap fun a i => ⟨s.heap, h1, rfl⟩⟩
    | alloc l k => exact ⟨_, _, .alloc l k⟩
    | write a f k => exact ⟨_, _, .write a f k⟩
  obtain ⟨p, h, h3⟩ := h2
  exact ⟨p, h, h3, .mk s i t p h ht h3⟩

/-! ## Goroutines without `DerivativeWrt` -/

/-- Goroutines that do arithmetic never change a shared slice. -/
theorem threads_shared {h0 : Heap R} {js : List (Job R)} (hj : ∀ j ∈ js, Job.Arith h0 j)
    {s : Sys R (List (Go (HScalar R)))} (hs : (jobsStart h0 js).Reach s) : h0.exps <+: s.heap.exps :=
  threads_shared_partial (fun j h => (hj j h).fine) hs

/-- No expression that existed at the start changes. -/
theorem threads_unchanged {h0 : Heap R} {js : List (Job R)} (hj : ∀ j ∈ js, Job.Arith h0 j)
    {s : Sys R (List (Go (HScalar R)))} (hs : (jobsStart h0 js).Reach s) {e : HScalar R} (he : e.Valid h0.exps) :
    e.load s.heap.exps = e.load h0.exps := threads_unchanged_partial (fun j h => (hj j h).fine) hs he

/-- A goroutine that is about to write writes to a slice made after the start. -/
theorem threads_write {h0 : Heap R} {js : List (Job R)} (hj : ∀ j ∈ js, Job.Arith h0 j)
    {s : Sys R (List (Go (HScalar R)))} (hs : (jobsStart h0 js).Reach s)
    {t : Thread R (List (Go (HScalar R)))} (ht : t ∈ s.threads) {a : ℕ} {f : List Int → List Int}
    {k : SM R (List (Go (HScalar R)))} (hp : t.prog = .write a f k) : h0.exps.length ≤ a :=
  threads_write_partial (fun j h => (hj j h).fine) hs ht hp

/-- Every goroutine gets the outcomes of its program on values, whatever the others do and when. -/
theorem threads_result {h0 : Heap R} {js : List (Job R)} (hj : ∀ j ∈ js, Job.Arith h0 j)
    {s : Sys R (List (Go (HScalar R)))} (hs : (jobsStart h0 js).Reach s) {i : ℕ} {objs : List (HScalar R)}
    {ops : List (HOp R)} (hi : js[i]? = some (objs, ops)) {t : Thread R (List (Go (HScalar R)))}
    (ht : s.threads[i]? = some t) {r : Go (List (Go (HScalar R)))} (hr : t.prog = .ret r) :
    ∃ rs, r = .ok rs ∧ rs.map (Except.map (HScalar.load s.heap.exps)) =
      (valObserve (objs.map (HScalar.load h0.exps)) ops).1 :=
  threads_result_partial (fun j h => (hj j h).fine) hs hi ht hr

/-- When nothing more can happen, every goroutine has ended, with its outcomes. -/
theorem threads_end {h0 : Heap R} {js : List (Job R)} (hj : ∀ j ∈ js, Job.Arith h0 j)
    {s : Sys R (List (Go (HScalar R)))} (hs : (jobsStart h0 js).Reach s) (hend : ∀ s', ¬ s.Step s') {i : ℕ}
    {objs : List (HScalar R)} {ops : List (HOp R)} (hi : js[i]? = some (objs, ops)) :
    ∃ t rs, s.threads[i]? = some t ∧ t.prog = .ret (.ok rs) ∧ rs.map (Except.map (HScalar.load s.heap.exps)) =
      (valObserve (objs.map (HScalar.load h0.exps)) ops).1 := by
  have hlen := (jobs_inv (fun j h => (hj j h).fine) hs).len
  rw [List.length_map] at hlen
  have hlt : i < s.threads.length := hlen ▸ (List.getElem?_eq_some_iff.mp hi).1
  have ht := List.getElem?_eq_getElem hlt
  by_cases hr : ∃ r, s.threads[i].prog = .ret r
  · obtain ⟨r, hr⟩ := hr
    obtain ⟨rs, rfl, h2⟩ := threads_result hj hs hi ht hr
    exact ⟨_, rs, ht, hr, h2⟩
  · obtain ⟨p, h, _, h3⟩ := threads_progress hs ht fun r hr' => hr ⟨r, hr'⟩
    exact absurd h3 (hend _)

/-- A goroutine alone, and the same goroutine among others, have the same outcomes. -/
theorem threads_alone {h0 : Heap R} {js : List (Job R)} (hj : ∀ j ∈ js, Job.Arith h0 j)
    {s : Sys R (List (Go (HScalar R)))} (hs : (jobsStart h0 js).Reach s) {i : ℕ} {objs : List (HScalar R)}
    {ops : List (HOp R)} (hi : js[i]? = some (objs, ops)) {t : Thread R (List (Go (HScalar R)))}
    (ht : s.threads[i]? = some t) {rs : List (Go (HScalar R))} (hr : t.prog = .ret (.ok rs)) :
    rs.map (Except.map (HScalar.load s.heap.exps)) = (AStore.observe ⟨objs, h0⟩ ops).1 := by
  have hji := hj _ (List.mem_of_getElem? hi)
  obtain ⟨rs', h1, h2⟩ := threads_result hj hs hi ht hr
  cases h1
  rw [h2]
  exact (congrArg Prod.fst (heapArith_observe (s := ⟨objs, h0⟩) hji.1 hji.2)).symm

/-! ## `DerivativeWrt` breaks this -/

/-- A goroutine takes one step, with reads that take no time. -/
def Sys.exec {α : Type} (s : Sys R α) (i : ℕ) : Sys R α :=
  match s.threads[i]? with
  | none => s
  | some t =>
    match t.prog with
    | .ret _ => s
    | .read k => ⟨s.heap, Sys.after s.threads i (k s.heap) s.heap⟩
    | .alloc l k => ⟨{ s.heap with exps := s.heap.exps ++ [l] },
        Sys.after s.threads i (k s.heap.exps.length) { s.heap with exps := s.heap.exps ++ [l] }⟩
    | .write a f k => ⟨{ s.heap with exps := s.heap.exps.modify a f },
        Sys.after s.threads i k { s.heap with exps := s.heap.exps.modify a f }⟩

theorem exec_reach {h0 : Heap R} {js : List (Job R)} (sched : List ℕ) :
    ∀ {s}, (jobsStart h0 js).Reach s → (jobsStart h0 js).Reach (sched.foldl Sys.exec s) := by
  induction sched with
  | nil => exact fun h => h
  | cons i l ih =>
    intro s hs
    refine ih ?_
    unfold Sys.exec
    cases ht : s.threads[i]? with
    | none => exact hs
    | some t =>
      have h1 : s.heap ∈ t.seen := heap_seen (fun t ht => by
        simp only [jobsStart, Sys.start, List.map_map, List.mem_map] at ht
        obtain ⟨j, -, rfl⟩ := ht
        simp [jobsStart, Sys.start]) hs t (List.mem_of_getElem? ht)
      obtain ⟨tp, ts⟩ := t
      cases tp with
      | ret r => exact hs
      | read k => exact hs.tail (.mk s i _ _ _ ht (.read k s.heap fun a i => ⟨s.heap, h1, rfl⟩))
      | alloc l k => exact hs.tail (.mk s i _ _ _ ht (.alloc l k))
      | write a f k => exact hs.tail (.mk s i _ _ _ ht (.write a f k))

/-- What goroutine `i` returned. -/
def Sys.outcome (s : Sys R (List (Go (HScalar R)))) (i : ℕ) : Option (Go (List (Go (Scalar R)))) :=
  match s.threads[i]? with
  | none => none
  | some t =>
    match t.prog with
    | .ret r => some (r.map (List.map (Except.map (HScalar.load s.heap.exps))))
    | _ => none

/-- `x²` and `2y`, which the goroutines share. -/
def wBoth : List (HScalar ℚ) := [.mono ⟨1, 0, [wx]⟩, .mono ⟨2, 1, [wy]⟩]

def wBothMem : Heap ℚ := ⟨[[2], [1]], []⟩

/-- One goroutine differentiates `x²`, another adds `x² + 2y`. -/
def wJobs : List (Job ℚ) := [(wBoth, [.deriv 0 wx]), (wBoth, [.plus 0 1])]

/-- If the first goroutine writes between the check and the copy of the second, the second returns `x + 2y`. -/
theorem threads_derivative_false :
    ∃ s : Sys ℚ (List (Go (HScalar ℚ))), (jobsStart wBothMem wJobs).Reach s ∧
      s.outcome 1 ≠ none ∧ s.outcome 1 ≠ some (.ok (valObserve (wBoth.map (HScalar.load wBothMem.exps)) [.plus 0 1]).1) :=
  ⟨_, exec_reach ([1, 1, 1, 1] ++ List.replicate 8 0 ++ List.replicate 60 1) .refl, by decide +kernel,
    by decide +kernel⟩

/-- Two goroutines differentiate `x³`: both read the exponent before either writes it back, and it ends at
two where one after the other would leave one. -/
example : ((List.replicate 6 0 ++ List.replicate 6 1 ++ [0, 0, 1, 1]).foldl Sys.exec
      (jobsStart (R := ℚ) ⟨[[3]], []⟩ [([.mono ⟨1, 0, [wx]⟩], [.deriv 0 wx]), ([.mono ⟨1, 0, [wx]⟩], [.deriv 0 wx])])).heap.exps =
    [[2]] := by decide +kernel

/-! ## A case -/

def wFineJobs : List (Job ℚ) := [(wBoth, [.plus 0 1, .mul 2 0, .power 2 2, .power 2 (-1)]),
  (wBoth, [.mul 0 0, .minus 2 1, .subst 3 wx 1]), (wBoth, [.deriv 1 wy, .copy 0])]

example : (∀ j ∈ wFineJobs.take 2, Job.Arith wBothMem j) ∧ ∀ e ∈ wBoth, e.Valid wBothMem.exps := by
  have h : ∀ e ∈ wBoth, e.Valid wBothMem.exps := by
    intro e he x hx
    simp only [wBoth, List.mem_cons, List.not_mem_nil, or_false] at he
    rcases he with rfl | rfl <;> simp [HScalar.addrs] at hx <;> subst hx <;> decide
  refine ⟨fun j hj => ?_, h⟩
  simp only [wFineJobs, List.take_succ_cons, List.take_zero, List.mem_cons, List.not_mem_nil, or_false] at hj
  rcases hj with rfl | rfl
  · refine ⟨h, fun o ho => ?_⟩
    simp only [List.mem_cons, List.not_mem_nil, or_false] at ho
    rcases ho with rfl | rfl | rfl | rfl <;> trivial
  · refine ⟨h, fun o ho => ?_⟩
    simp only [List.mem_cons, List.not_mem_nil, or_false] at ho
    rcases ho with rfl | rfl | rfl <;> trivial

/-- They take turns and end. -/
example : let s := ((List.range 600).map (· % 2)).foldl Sys.exec (jobsStart wBothMem (wFineJobs.take 2))
    s.outcome 0 = some (.ok (valObserve (wBoth.map (HScalar.load wBothMem.exps))
      [.plus 0 1, .mul 2 0, .power 2 2, .power 2 (-1)]).1) ∧ s.outcome 1 ≠ none := by decide +kernel

end Verif
