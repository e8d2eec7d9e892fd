import Verif.Lemmas.HeapRef

/-!
# Scalar arithmetic on memory refines scalar arithmetic on values
-/

set_option linter.unusedSectionVars false

namespace Verif

open GoNum

variable {R : Type} [GoNum R] {lo : ℕ}

theorem hCheck_bind {lo1 : ℕ} {γ C : Type} {N : Loader γ C} {e : HScalar R} {s : Scalar R} {h : Heap R}
    {f : Unit → PM (Heap R) γ} {y : Go C} (he : Rep lo1 LS h.exps e s) (h2 : Ref lo N (f ()) h y) :
    Ref lo N (hCheck e >>= f) h (s.check >>= fun _ => y) :=
  Ref.readBind (congrArg Scalar.check he.load) fun _ _ => h2

theorem hNew_ref (m : Mono R) (h : Heap R) : Ref lo LM (hNew m) h (.ok m) := by
  have hrun : hNew m h = (.ok ⟨m.coeff, h.exps.length, m.vars⟩, { h with exps := h.exps ++ [m.exps] }) := rfl
  intro hlo
  refine ⟨?_, ?_, ?_, ?_⟩ <;> rw [hrun]
  · exact congrArg Except.ok new_mono_load
  · exact List.prefix_append _ _
  · intro b hb x hx
    cases hb
    have : x = h.exps.length := by simpa [LM] using hx
    simpa [this] using hlo

theorem hCopy_ref {lo1 : ℕ} {m : HMono R} {n : Mono R} {h : Heap R} (hm : Rep lo1 LM h.exps m n) : Ref lo LM (hCopy m) h (.ok n) :=
  Ref.readOk (congrArg Except.ok hm.load) (hNew_ref n h)

/-! ## Simplification -/

theorem mono_asSimplified_cases {m : Mono R} {s : Scalar R} (hs : m.asSimplified = .ok s) :
    (∃ c, s = .k c) ∨ (∃ v, s = .var v) ∨ s = .mono m := by
  unfold Mono.asSimplified at hs
  cases hm : m.check with
  | error e => rw [hm] at hs; cases hs
  | ok u =>
    rw [hm] at hs
    simp only [Go.ok_bind, Go.pure_eq] at hs
    repeat' split at hs
    all_goals first
      | (cases hs; exact Or.inl ⟨_, rfl⟩)
      | (cases hs; exact Or.inr (Or.inl ⟨_, rfl⟩))
      | (cases hs; exact Or.inr (Or.inr rfl))

theorem hMonoSimplified_ref {m : HMono R} {n : Mono R} {h : Heap R} (hm : Rep lo LM h.exps m n) :
    Ref lo LS (hMonoSimplified m) h n.asSimplified := by
  have h1 : n.asSimplified = n.asSimplified >>= fun s => .ok s := by cases n.asSimplified <;> rfl
  rw [h1]
  unfold hMonoSimplified
  refine Ref.readBind (congrArg Mono.asSimplified hm.load) fun s hs => ?_
  rcases mono_asSimplified_cases hs with ⟨c, rfl⟩ | ⟨v, rfl⟩ | rfl
  · exact Ref.pure Rep.k
  · exact Ref.pure Rep.var
  · exact Ref.pure hm.toMono

theorem hInsert_eq {h : ExpHeap} {m : HMono R} {n : Mono R} (hm : Rep lo LM h m n) (l : List (HMono R)) :
    ∀ {ms : List (Mono R)}, Rep lo LM.list h l ms →
    (hInsert h m l).map (LM.list.load h) = insertMono n ms ∧ ∀ r, hInsert h m l = .ok r → LM.list.In lo h r := by
  induction l with
  | nil =>
    intro ms hl
    rw [hl.nil_inv]
    refine ⟨?_, fun r hr => ?_⟩
    · exact congrArg (fun x => Except.ok [x]) hm.load
    · cases hr
      exact (hm.cons Rep.nil).valid
  | cons e es ih =>
    intro ms hl
    obtain ⟨y, ys, rfl, h1, h2⟩ := hl.cons_inv
    have h3 := ih h2
    have he : e.load h = y := h1.load
    have hn : m.load h = n := hm.load
    unfold hInsert insertMono
    rw [he, hn]
    cases hb : y.matchesFormOf n with
    | error er => exact ⟨rfl, fun r hr => by cases hr⟩
    | ok b =>
      simp only [Go.ok_bind]
      cases b with
      | true =>
        have h4 := (h1.withCoeff (add e.coeff m.coeff)).cons h2
        refine ⟨?_, fun r hr => ?_⟩
        · rw [← h1.coeff, ← hm.coeff]
          exact congrArg Except.ok h4.load
        · cases hr
          exact h4.valid
      | false =>
        simp only [Bool.false_eq_true, if_false]
        cases hr : hInsert h m es with
        | error er =>
          rw [hr] at h3
          rw [← h3.1]
          exact ⟨rfl, fun r hr => by cases hr⟩
        | ok r =>
          rw [hr] at h3
          rw [← h3.1]
          have h4 := h1.cons (xs := LM.list.load h r) ⟨h3.2 r rfl, rfl⟩
          exact ⟨congrArg Except.ok h4.load, fun r' hr' => by cases hr'; exact h4.valid⟩

theorem hSimplifyFold_eq {h : ExpHeap} (l : List (HMono R)) :
    ∀ {ms : List (Mono R)} {c : R} {acc : List (HMono R)} {as : List (Mono R)}, Rep lo LM.list h l ms →
    Rep lo LM.list h acc as →
    (l.foldlM (hSimplifyStep h) (c, acc)).map (fun st => (st.1, LM.list.load h st.2)) =
        ms.foldlM simplifyStep (c, as) ∧
      ∀ st, l.foldlM (hSimplifyStep h) (c, acc) = .ok st → LM.list.In lo h st.2 := by
  induction l with
  | nil =>
    intro ms c acc as hl ha
    rw [hl.nil_inv]
    refine ⟨congrArg (fun x => Except.ok (c, x)) ha.load, fun st hst => ?_⟩
    cases hst
    exact ha.valid
  | cons m l ih =>
    intro ms c acc as hl ha
    obtain ⟨n, ns, rfl, h1, h2⟩ := hl.cons_inv
    rw [List.foldlM_cons, List.foldlM_cons]
    have hS : hSimplifyStep h (c, acc) m = if m.vars.isEmpty then .ok (add c m.coeff, acc) else
        (hInsert h m acc).map (fun r => (c, r)) := by
      unfold hSimplifyStep
      cases m.vars.isEmpty
      · simp only [Bool.false_eq_true, if_false]
        cases hInsert h m acc <;> rfl
      · rfl
    have hT : simplifyStep (c, as) n = if n.vars.isEmpty then .ok (add c n.coeff, as) else
        (insertMono n as).map (fun r => (c, r)) := by
      unfold simplifyStep Mono.isConstant
      cases n.vars.isEmpty
      · simp only [Bool.false_eq_true, if_false]
        cases insertMono n as <;> rfl
      · rfl
    rw [hS, hT, ← h1.vars, ← h1.coeff]
    cases m.vars.isEmpty with
    | true => exact ih h2 ha
    | false =>
      simp only [Bool.false_eq_true, if_false]
      have h3 := hInsert_eq h1 acc ha
      cases hr : hInsert h m acc with
      | error e =>
        rw [hr] at h3
        rw [← h3.1]
        exact ⟨rfl, fun st hst => by cases hst⟩
      | ok r =>
        rw [hr] at h3
        rw [← h3.1]
        exact ih h2 ⟨h3.2 r rfl, rfl⟩

theorem Rep.filterCoeff {h : ExpHeap} {l : List (HMono R)} {ms : List (Mono R)} (hl : Rep lo LM.list h l ms)
    (q : R → Bool) : Rep lo LM.list h (l.filter (fun m => q m.coeff)) (ms.filter (fun m => q m.coeff)) := by
  induction l generalizing ms with
  | nil => rw [hl.nil_inv]; exact Rep.nil
  | cons a l ih =>
    obtain ⟨y, ys, rfl, h1, h2⟩ := hl.cons_inv
    rw [List.filter_cons, List.filter_cons, h1.coeff]
    split
    · exact h1.cons (ih h2)
    · exact ih h2

theorem Rep.isEmpty {α A : Type} {L : Loader α A} {h : ExpHeap} {l : List α} {xs : List A} (hl : Rep lo L.list h l xs) :
    l.isEmpty = xs.isEmpty := by
  rw [← hl.load]
  cases l <;> rfl

theorem Rep.ofMonos {h : ExpHeap} {l : List (HMono R)} {ms : List (Mono R)} (hl : Rep lo LM.list h l ms) :
    Rep lo LP h ⟨l⟩ ⟨ms⟩ :=
  ⟨fun x hx => hl.valid x (by rw [← lp_addrs ⟨l⟩]; exact hx), congrArg Poly.mk hl.load⟩

theorem Rep.monos {h : ExpHeap} {p : HPoly R} {q : Poly R} (hp : Rep lo LP h p q) : Rep lo LM.list h p.monos q.monos :=
  ⟨fun x hx => hp.valid x (by rw [lp_addrs]; exact hx), by rw [← hp.load]; rfl⟩

theorem Rep.polyS {h : ExpHeap} {p : HPoly R} {q : Poly R} (hp : Rep lo LP h p q) : Rep lo LS h (.poly p) (.poly q) :=
  ⟨hp.valid, congrArg Scalar.poly hp.load⟩

theorem Rep.polyP {h : ExpHeap} {p : HPoly R} {s : Scalar R} (hp : Rep lo LS h (.poly p) s) :
    ∃ q, s = .poly q ∧ Rep lo LP h p q := ⟨_, hp.load.symm, hp.valid, rfl⟩

/-- The terms `Polynomial.Simplify` returns. -/
def simplifiedTerms (st : R × List (Mono R)) : Poly R :=
  let out := (if feq st.1 zero then [] else [kToMono st.1]) ++ st.2.filter (fun m => !feq m.coeff zero)
  ⟨if out.isEmpty then [kToMono zero] else out⟩

theorem simplify_eq (p : Poly R) : p.simplify =
    p.check >>= fun _ => p.monos.foldlM simplifyStep (zero, []) >>= fun st => .ok (simplifiedTerms st) := rfl

theorem hSimplifyOut_ref {c : R} {l : List (HMono R)} {ms : List (Mono R)} {h : Heap R}
    (hl : Rep lo LM.list h.exps l ms) : Ref lo LP (hSimplifyOut (c, l)) h (.ok (simplifiedTerms (c, ms))) := by
  have hf := hl.filterCoeff (fun c => !feq c zero)
  unfold hSimplifyOut simplifiedTerms
  cases hc : feq c zero with
  | true =>
    simp only [if_true, List.nil_append]
    rw [hf.isEmpty]
    split
    · exact Ref.bindOk (hNew_ref _ h) fun z h' hp hz => Ref.pure (hz.cons Rep.nil).ofMonos
    · exact Ref.pure hf.ofMonos
  | false =>
    simp only [Bool.false_eq_true, if_false]
    refine Ref.bindOk (hNew_ref _ h) fun z h' hp hz => ?_
    exact Ref.pure (hz.cons (hf.mono hp)).ofMonos

theorem hPolySimplify_ref {p : HPoly R} {q : Poly R} {h : Heap R} (hp : Rep lo LP h.exps p q) :
    Ref lo LP (hPolySimplify p) h q.simplify := by
  rw [simplify_eq]
  unfold hPolySimplify
  refine hCheck_bind hp.polyS ?_
  have h1 := hSimplifyFold_eq (h := h.exps) p.monos (c := zero) hp.monos Rep.nil
  rw [← h1.1]
  cases hr : p.monos.foldlM (hSimplifyStep h.exps) (zero, []) with
  | error e =>
    refine Ref.readBind (y := .error e) (g := fun _ => Except.error e) hr fun a ha => by cases ha
  | ok st =>
    exact Ref.readOk hr (hSimplifyOut_ref ⟨h1.2 st hr, rfl⟩)

theorem polySimplified_eq (p : Poly R) : p.asSimplified = p.simplify >>= Poly.reduce := rfl

theorem reduce_cases {q : Poly R} {s : Scalar R} (hs : q.reduce = .ok s) :
    (∃ c, s = .k c) ∨ (∃ v, s = .var v) ∨ (∃ m, q.monos = [m] ∧ s = .mono m) ∨ s = .poly q := by
  unfold Poly.reduce at hs
  obtain ⟨d, -, hs⟩ := Go.bind_eq_ok.mp hs
  by_cases h0 : d = 0
  · rw [if_pos h0] at hs
    obtain ⟨c, -, hs⟩ := Go.bind_eq_ok.mp hs
    cases hs
    exact Or.inl ⟨_, rfl⟩
  rw [if_neg h0] at hs
  dsimp only at hs
  by_cases h1 : d = 1
  · rw [if_pos h1] at hs
    rcases hq : q.monos with _ | ⟨m, _ | ⟨m2, t⟩⟩ <;> rcases hv : q.variables with _ | ⟨v, t'⟩ <;>
      simp only [hq, hv] at hs
    · cases hs; exact Or.inr (Or.inr (Or.inr rfl))
    · cases hs; exact Or.inr (Or.inr (Or.inr rfl))
    · cases hs
    · obtain ⟨b, -, hs⟩ := Go.bind_eq_ok.mp hs
      cases b with
      | true =>
        simp only [if_true] at hs
        obtain ⟨c, -, hs⟩ := Go.bind_eq_ok.mp hs
        cases hs
        exact Or.inr (Or.inl ⟨_, rfl⟩)
      | false =>
        cases hs
        exact Or.inr (Or.inr (Or.inl ⟨m, rfl, rfl⟩))
    · cases hs; exact Or.inr (Or.inr (Or.inr rfl))
    · cases hs; exact Or.inr (Or.inr (Or.inr rfl))
  · rw [if_neg h1] at hs
    rcases hq : q.monos with _ | ⟨m, _ | ⟨m2, t⟩⟩ <;> simp only [hq] at hs
    · cases hs; exact Or.inr (Or.inr (Or.inr rfl))
    · cases hs; exact Or.inr (Or.inr (Or.inl ⟨m, rfl, rfl⟩))
    · cases hs; exact Or.inr (Or.inr (Or.inr rfl))

theorem Rep.singleton {α A : Type} {L : Loader α A} {h : ExpHeap} {l : List α} {x : A} (hl : Rep lo L.list h l [x]) :
    ∃ a, l = [a] ∧ Rep lo L h a x := by
  cases l with
  | nil => exact absurd hl.nil_inv (by simp)
  | cons a l =>
    obtain ⟨y, ys, h1, h2, h3⟩ := hl.cons_inv
    cases l with
    | nil => cases h1; exact ⟨a, rfl, h2⟩
    | cons b l =>
      obtain ⟨z, zs, rfl, -, -⟩ := h3.cons_inv
      cases h1

theorem hPolySimplified_ref {p : HPoly R} {q : Poly R} {h : Heap R} (hp : Rep lo LP h.exps p q) :
    Ref lo LS (hPolySimplified p) h q.asSimplified := by
  rw [polySimplified_eq]
  unfold hPolySimplified
  refine Ref.bind (hPolySimplify_ref hp) fun r s h' _ _ hr => ?_
  have h1 : s.reduce = s.reduce >>= fun s => .ok s := by cases s.reduce <;> rfl
  rw [h1]
  refine Ref.readBind (congrArg Poly.reduce hr.load) fun x hx => ?_
  rcases reduce_cases hx with ⟨c, rfl⟩ | ⟨v, rfl⟩ | ⟨m, hm, rfl⟩ | rfl
  · exact Ref.pure Rep.k
  · exact Ref.pure Rep.var
  · have h2 := hr.monos
    rw [hm] at h2
    obtain ⟨a, ha, h3⟩ := h2.singleton
    dsimp only
    rw [ha]
    exact Ref.pure h3.toMono
  · exact Ref.pure hr.polyS

theorem hSimplified_ref {e : HScalar R} {s : Scalar R} {h : Heap R} (he : Rep lo LS h.exps e s) :
    Ref lo LS (hSimplified e) h s.asSimplified := by
  cases e with
  | k c => rw [he.k_inv]; exact Ref.pure Rep.k
  | var v => rw [he.var_inv]; exact Ref.pure Rep.var
  | mono m =>
    obtain ⟨n, rfl, hm⟩ := Rep.mono_iff.mp he
    exact hMonoSimplified_ref hm
  | poly p =>
    obtain ⟨q, rfl, hp⟩ := he.polyP
    exact hPolySimplified_ref hp

/-! ## Plus -/

theorem Rep.findConst {h : ExpHeap} {l : List (HMono R)} {ms : List (Mono R)} (hl : Rep lo LM.list h l ms) :
    l.findIdx? (·.vars.isEmpty) = ms.findIdx? (·.isConstant) := by
  rw [← hl.load]
  show _ = (l.map (HMono.load h)).findIdx? _
  rw [List.findIdx?_map]
  rfl

theorem hPolyPlusK_ref {p : HPoly R} {q : Poly R} {h : Heap R} (hp : Rep lo LP h.exps p q) (c : R) :
    Ref lo LS (hPolyPlusK p c) h (q.plusK c) := by
  unfold hPolyPlusK Poly.plusK
  refine hCheck_bind hp.polyS ?_
  rw [hp.monos.findConst]
  unfold Poly.constantIndex
  cases q.monos.findIdx? (·.isConstant) with
  | none =>
    refine Ref.bindOk (hNew_ref _ h) fun k h' he hk => ?_
    exact hPolySimplified_ref ((hp.monos.mono he).append (hk.cons Rep.nil)).ofMonos
  | some i => exact hPolySimplified_ref (hp.monos.modifyCoeff i (fun x => add x c)).ofMonos

theorem hPolyPlusVar_ref {p : HPoly R} {q : Poly R} {h : Heap R} (hp : Rep lo LP h.exps p q) (v : Var R) :
    Ref lo LS (hPolyPlusVar p v) h (q.plusVar v) := by
  unfold hPolyPlusVar Poly.plusVar
  refine hCheck_bind hp.polyS ?_
  refine hCheck_bind (e := .var v) (lo1 := 0) Rep.var ?_
  refine Ref.readBind (congrArg (fun x => Poly.variableIndex x v) hp.load) fun o _ => ?_
  cases o with
  | none =>
    refine Ref.bindOk (hNew_ref _ h) fun k h' he hk => ?_
    exact hPolySimplified_ref ((hp.monos.mono he).append (hk.cons Rep.nil)).ofMonos
  | some i => exact hPolySimplified_ref (hp.monos.modifyCoeff i (fun x => add x one)).ofMonos

theorem hPolyPlusPoly_ref {p r : HPoly R} {q s : Poly R} {h : Heap R} (hp : Rep lo LP h.exps p q)
    (hr : Rep lo LP h.exps r s) : Ref lo LS (hPolyPlusPoly p r) h (q.plusPoly s) := by
  unfold hPolyPlusPoly Poly.plusPoly
  refine hCheck_bind hp.polyS ?_
  refine hCheck_bind hr.polyS ?_
  exact Ref.bind (hPolySimplified_ref (hp.monos.append hr.monos).ofMonos) fun o x h' _ _ ho => hSimplified_ref ho

theorem hPolyPlusMono_ref {p : HPoly R} {q : Poly R} {m : HMono R} {n : Mono R} {h : Heap R}
    (hp : Rep lo LP h.exps p q) (hm : Rep lo LM h.exps m n) : Ref lo LS (hPolyPlusMono p m) h (q.plusMono n) := by
  unfold hPolyPlusMono Poly.plusMono
  refine hCheck_bind hp.polyS ?_
  refine hCheck_bind hm.toMono ?_
  refine Ref.bindOk (hCopy_ref hm) fun r h' he hr => ?_
  exact Ref.bind (hPolyPlusPoly_ref (hp.mono he) (hr.cons Rep.nil).ofMonos) fun o x h' _ _ ho => hSimplified_ref ho

theorem hMonoPlus_ref {m : HMono R} {n : Mono R} {e : HScalar R} {s : Scalar R} {h : Heap R}
    (hm : Rep lo LM h.exps m n) (he : Rep lo LS h.exps e s) : Ref lo LS (hMonoPlus m e) h (n.plus s) := by
  unfold hMonoPlus Mono.plus
  refine hCheck_bind hm.toMono ?_
  refine hCheck_bind he ?_
  cases e with
  | k c =>
    rw [he.k_inv]
    dsimp only
    unfold Mono.isConstant
    rw [← hm.vars, ← hm.coeff]
    split
    · exact Ref.pure Rep.k
    · refine Ref.bindOk (hCopy_ref hm) fun m' h1 e1 hm' => ?_
      refine Ref.bindOk (hNew_ref _ h1) fun k h2 e2 hk => ?_
      exact hSimplified_ref ((hm'.mono e2).cons (hk.cons Rep.nil)).ofMonos.polyS
  | var v =>
    rw [he.var_inv]
    dsimp only
    refine Ref.readBind (congrArg (fun x => Mono.isDegreeOne x v) hm.load) fun b _ => ?_
    refine Ref.bindOk (hCopy_ref hm) fun m' h1 e1 hm' => ?_
    cases b with
    | true =>
      have h3 := hSimplified_ref (h := h1) (hm'.withCoeff (add m'.coeff one)).toMono
      rw [hm'.coeff] at h3
      simpa [hm'.coeff] using h3
    | false =>
      refine Ref.bindOk (hNew_ref _ h1) fun k h2 e2 hk => ?_
      exact hSimplified_ref ((hm'.mono e2).cons (hk.cons Rep.nil)).ofMonos.polyS
  | mono r =>
    obtain ⟨t, rfl, hr⟩ := Rep.mono_iff.mp he
    dsimp only
    refine Ref.readBind (y := n.matchesFormOf t) ?_ fun b _ => ?_
    · show (m.load h.exps).matchesFormOf (r.load h.exps) = _
      rw [show m.load h.exps = n from hm.load, show r.load h.exps = t from hr.load]
    refine Ref.bindOk (hCopy_ref hm) fun m' h1 e1 hm' => ?_
    cases b with
    | true =>
      have h3 := hSimplified_ref (h := h1) (hm'.withCoeff (add m'.coeff r.coeff)).toMono
      rw [hm'.coeff, hr.coeff] at h3
      simpa [hm'.coeff, hr.coeff] using h3
    | false => exact hSimplified_ref (hm'.cons ((hr.mono e1).cons Rep.nil)).ofMonos.polyS
  | poly p =>
    obtain ⟨q, rfl, hp⟩ := he.polyP
    dsimp only
    refine Ref.bindOk (hCopy_ref hm) fun m' h1 e1 hm' => ?_
    exact Ref.bind (hPolyPlusMono_ref (hp.mono e1) hm') fun o x h' _ _ ho => hSimplified_ref ho

theorem hPolyPlus_ref {p : HPoly R} {q : Poly R} {e : HScalar R} {s : Scalar R} {h : Heap R}
    (hp : Rep lo LP h.exps p q) (he : Rep lo LS h.exps e s) : Ref lo LS (hPolyPlus p e) h (q.plus s) := by
  cases e with
  | k c => rw [he.k_inv]; exact hPolyPlusK_ref hp c
  | var v => rw [he.var_inv]; exact hPolyPlusVar_ref hp v
  | mono m =>
    obtain ⟨n, rfl, hm⟩ := Rep.mono_iff.mp he
    exact hPolyPlusMono_ref hp hm
  | poly r =>
    obtain ⟨t, rfl, hr⟩ := he.polyP
    exact hPolyPlusPoly_ref hp hr

theorem hVarPlus_ref (v : Var R) {e : HScalar R} {s : Scalar R} {h : Heap R} (he : Rep lo LS h.exps e s) :
    Ref lo LS (hVarPlus v e) h (v.plus s) := by
  unfold hVarPlus Var.plus
  refine hCheck_bind (e := .var v) (lo1 := 0) Rep.var ?_
  cases e with
  | k c =>
    rw [he.k_inv]
    refine Ref.bindOk (hNew_ref _ h) fun x h1 e1 hx => ?_
    refine Ref.bindOk (hNew_ref _ h1) fun k h2 e2 hk => ?_
    exact hSimplified_ref ((hx.mono e2).cons (hk.cons Rep.nil)).ofMonos.polyS
  | var w =>
    rw [he.var_inv]
    dsimp only
    split
    · refine Ref.bindOk (hNew_ref _ h) fun x h1 e1 hx => ?_
      exact hSimplified_ref hx.toMono
    · refine Ref.bindOk (hNew_ref _ h) fun x h1 e1 hx => ?_
      refine Ref.bindOk (hNew_ref _ h1) fun k h2 e2 hk => ?_
      exact hSimplified_ref ((hx.mono e2).cons (hk.cons Rep.nil)).ofMonos.polyS
  | mono m =>
    obtain ⟨n, rfl, hm⟩ := Rep.mono_iff.mp he
    exact Ref.bind (hMonoPlus_ref hm Rep.var) fun o x h' _ _ ho => hSimplified_ref ho
  | poly p =>
    obtain ⟨q, rfl, hp⟩ := he.polyP
    exact Ref.bind (hPolyPlusVar_ref hp v) fun o x h' _ _ ho => hSimplified_ref ho

theorem hKPlus_ref (c : R) {e : HScalar R} {s : Scalar R} {h : Heap R} (he : Rep lo LS h.exps e s) :
    Ref lo LS (hKPlus c e) h (kPlus c s) := by
  unfold hKPlus kPlus
  refine hCheck_bind he ?_
  cases e with
  | k d => rw [he.k_inv]; exact Ref.pure Rep.k
  | var v => rw [he.var_inv]; exact hVarPlus_ref v Rep.k
  | mono m =>
    obtain ⟨n, rfl, hm⟩ := Rep.mono_iff.mp he
    exact hMonoPlus_ref hm Rep.k
  | poly p =>
    obtain ⟨q, rfl, hp⟩ := he.polyP
    exact hPolyPlusK_ref hp c

theorem hPlus_ref {a b : HScalar R} {x y : Scalar R} {h : Heap R} (ha : Rep lo LS h.exps a x)
    (hb : Rep lo LS h.exps b y) : Ref lo LS (hPlus a b) h (x.plus y) := by
  cases a with
  | k c => rw [ha.k_inv]; exact hKPlus_ref c hb
  | var v => rw [ha.var_inv]; exact hVarPlus_ref v hb
  | mono m =>
    obtain ⟨n, rfl, hm⟩ := Rep.mono_iff.mp ha
    exact hMonoPlus_ref hm hb
  | poly p =>
    obtain ⟨q, rfl, hp⟩ := ha.polyP
    exact hPolyPlus_ref hp hb

/-! ## Multiply -/

theorem hMonoMulK_ref {m : HMono R} {n : Mono R} {h : Heap R} (hm : Rep 0 LM h.exps m n) (c : R) :
    Ref lo LM (hMonoMulK m c) h (.ok (n.mulK c)) := by
  unfold hMonoMulK Mono.mulK
  refine Ref.bindOk (hCopy_ref hm) fun m' h1 e1 hm' => ?_
  rw [← hm'.coeff]
  exact Ref.pure (hm'.withCoeff _)

theorem modify_new {h : ExpHeap} {l : List Int} (f : List Int → List Int) :
    (h ++ [l]).modify h.length f = h ++ [f l] := by
  induction h with
  | nil => rfl
  | cons a h ih => exact congrArg (a :: ·) ih

theorem hMonoMulVar_ref {m : HMono R} {n : Mono R} {h : Heap R} (hm : Rep 0 LM h.exps m n) (v : Var R) :
    Ref lo LM (hMonoMulVar m v) h (.ok (n.mulVar v)) := by
  cases hf : findVar v n.vars with
  | none =>
    unfold hMonoMulVar Mono.mulVar
    rw [hm.vars, hf]
    refine Ref.bindOk (hCopy_ref hm) fun m' h1 e1 hm' => ?_
    refine Ref.readOk (congrArg Except.ok hm'.load) ?_
    rw [hm'.coeff, hm'.vars]
    exact hNew_ref _ h1
  | some i =>
    have hl : m.load h.exps = n := hm.load
    have hrun : hMonoMulVar m v h = (.ok ⟨n.coeff, h.exps.length, n.vars⟩,
        { h with exps := h.exps ++ [n.exps.modify i (· + 1)] }) := by
      have h1 : hMonoMulVar m v h = (match findVar v m.vars with
        | none => (PM.read (fun h' => .ok ((⟨(m.load h.exps).coeff, h.exps.length, (m.load h.exps).vars⟩ :
              HMono R).load h'.exps)) >>= fun e => hNew ⟨(m.load h.exps).coeff, e.exps ++ [1],
              (m.load h.exps).vars ++ [v]⟩ : PM (Heap R) (HMono R))
        | some i => fun h' => (.ok ⟨(m.load h.exps).coeff, h.exps.length, (m.load h.exps).vars⟩,
            { h' with exps := h'.exps.modify h.exps.length (·.modify i (· + 1)) }))
          { h with exps := h.exps ++ [(m.load h.exps).exps] } := rfl
      rw [h1, hm.vars, hf]
      dsimp only
      rw [modify_new, hl]
    unfold Mono.mulVar
    rw [hf]
    intro hlo
    refine ⟨?_, ?_, ?_, ?_⟩ <;> rw [hrun]
    · exact congrArg Except.ok new_mono_load
    · exact List.prefix_append _ _
    · intro b hb x hx
      cases hb
      have : x = h.exps.length := by simpa [LM] using hx
      simpa [this] using hlo

theorem hMonoMulMono_ref {m r : HMono R} {n t : Mono R} {h : Heap R} (hm : Rep 0 LM h.exps m n)
    (hr : Rep 0 LM h.exps r t) : Ref lo LM (hMonoMulMono m r) h (n.mulMono t) := by
  have h1 : n.mulMono t = n.mulMono t >>= fun s => .ok s := by cases n.mulMono t <;> rfl
  rw [h1]
  unfold hMonoMulMono
  refine Ref.readBind (y := n.mulMono t) ?_ fun q _ => hNew_ref q h
  show (m.load h.exps).mulMono (r.load h.exps) = _
  rw [show m.load h.exps = n from hm.load, show r.load h.exps = t from hr.load]

theorem mapM_pure_map {α β : Type} (f : α → β) (l : List α) : (l.mapM fun a => (.ok (f a) : Go β)) = .ok (l.map f) := by
  induction l with
  | nil => rfl
  | cons a l ih => rw [List.mapM_cons, ih]; rfl

theorem hPolyMulK_ref {p : HPoly R} {q : Poly R} {h : Heap R} (hp : Rep 0 LP h.exps p q) (c : R) :
    Ref lo LS (hPolyMulK p c) h (q.mulK c) := by
  unfold hPolyMulK Poly.mulK
  refine hCheck_bind hp.polyS ?_
  have h1 := Ref.traverse (lo := lo) (M := LM) (f := fun m => hMonoMulK m c) (g := fun n => .ok (n.mulK c)) p.monos hp.monos
    fun a x h' _ ha => hMonoMulK_ref ha c
  rw [mapM_pure_map] at h1
  exact Ref.bindOk h1 fun ms h' _ hms => hPolySimplified_ref hms.ofMonos

theorem hPolyMulVar_ref {p : HPoly R} {q : Poly R} {h : Heap R} (hp : Rep 0 LP h.exps p q) (v : Var R) :
    Ref lo LS (hPolyMulVar p v) h (q.mulVar v) := by
  unfold hPolyMulVar Poly.mulVar
  refine hCheck_bind hp.polyS ?_
  refine hCheck_bind (e := .var v) (lo1 := 0) Rep.var ?_
  have h1 := Ref.traverse (lo := lo) (M := LM) (f := fun m => hMonoMulVar m v) (g := fun n => .ok (n.mulVar v)) p.monos hp.monos
    fun a x h' _ ha => hMonoMulVar_ref ha v
  rw [mapM_pure_map] at h1
  exact Ref.bindOk h1 fun ms h' _ hms => hPolySimplified_ref hms.ofMonos

theorem hPolyMulMono_ref {p : HPoly R} {q : Poly R} {m : HMono R} {n : Mono R} {h : Heap R}
    (hp : Rep 0 LP h.exps p q) (hm : Rep 0 LM h.exps m n) : Ref lo LS (hPolyMulMono p m) h (q.mulMono n) := by
  unfold hPolyMulMono Poly.mulMono
  refine hCheck_bind hp.polyS ?_
  refine hCheck_bind hm.toMono ?_
  exact Ref.bind (Ref.traverse (M := LM) (f := fun m' => hMonoMulMono m' m) (g := fun x => x.mulMono n) p.monos hp.monos
    fun a x h' he ha => hMonoMulMono_ref ha (hm.mono he)) fun ms z h' _ _ hms => hPolySimplified_ref hms.ofMonos

theorem hPolyMulPoly_ref {p r : HPoly R} {q s : Poly R} {h : Heap R} (hp : Rep 0 LP h.exps p q)
    (hr : Rep 0 LP h.exps r s) : Ref lo LS (hPolyMulPoly p r) h (q.mulPoly s) := by
  unfold hPolyMulPoly Poly.mulPoly
  refine hCheck_bind hp.polyS ?_
  refine hCheck_bind hr.polyS ?_
  refine Ref.bind (Ref.foldl r.monos hr.monos Rep.k fun a x b y h' he ha hb => ?_)
    fun o x h' _ _ ho => hSimplified_ref ho
  exact Ref.bind (hPolyMulMono_ref (hp.mono he) ha) fun o z h'' e2 _ ho => hPlus_ref (hb.mono e2) ho

theorem hPolyMul_ref {p : HPoly R} {q : Poly R} {e : HScalar R} {s : Scalar R} {h : Heap R}
    (hp : Rep 0 LP h.exps p q) (he : Rep 0 LS h.exps e s) : Ref lo LS (hPolyMul p e) h (q.mul s) := by
  cases e with
  | k c => rw [he.k_inv]; exact hPolyMulK_ref hp c
  | var v => rw [he.var_inv]; exact hPolyMulVar_ref hp v
  | mono m =>
    obtain ⟨n, rfl, hm⟩ := Rep.mono_iff.mp he
    exact hPolyMulMono_ref hp hm
  | poly r =>
    obtain ⟨t, rfl, hr⟩ := he.polyP
    exact hPolyMulPoly_ref hp hr

theorem hMonoMul_ref {m : HMono R} {n : Mono R} {e : HScalar R} {s : Scalar R} {h : Heap R}
    (hm : Rep 0 LM h.exps m n) (he : Rep 0 LS h.exps e s) : Ref lo LS (hMonoMul m e) h (n.mul s) := by
  unfold hMonoMul Mono.mul
  refine hCheck_bind hm.toMono ?_
  refine hCheck_bind he ?_
  cases e with
  | k c =>
    rw [he.k_inv]
    exact Ref.bindOk (hMonoMulK_ref hm c) fun x h' _ hx => Ref.pure hx.toMono
  | var v =>
    rw [he.var_inv]
    exact Ref.bindOk (hMonoMulVar_ref hm v) fun x h' _ hx => Ref.pure hx.toMono
  | mono r =>
    obtain ⟨t, rfl, hr⟩ := Rep.mono_iff.mp he
    exact Ref.bind (hMonoMulMono_ref hm hr) fun x z h' _ _ hx => Ref.pure hx.toMono
  | poly p =>
    obtain ⟨q, rfl, hp⟩ := he.polyP
    exact hPolyMulMono_ref hp hm

theorem hVarMul_ref (v : Var R) {e : HScalar R} {s : Scalar R} {h : Heap R} (he : Rep 0 LS h.exps e s) :
    Ref lo LS (hVarMul v e) h (v.mul s) := by
  unfold hVarMul Var.mul
  refine hCheck_bind (e := .var v) (lo1 := 0) Rep.var ?_
  refine hCheck_bind he ?_
  cases e with
  | k c =>
    rw [he.k_inv]
    exact Ref.bindOk (hNew_ref _ h) fun x h1 e1 hx => hSimplified_ref hx.toMono
  | var w =>
    rw [he.var_inv]
    dsimp only
    split
    · exact Ref.bindOk (hNew_ref _ h) fun x h1 e1 hx => hSimplified_ref hx.toMono
    · exact Ref.bindOk (hNew_ref _ h) fun x h1 e1 hx => hSimplified_ref hx.toMono
  | mono m =>
    obtain ⟨n, rfl, hm⟩ := Rep.mono_iff.mp he
    exact Ref.bind (hMonoMul_ref hm Rep.var) fun o x h' _ _ ho => hSimplified_ref ho
  | poly p =>
    obtain ⟨q, rfl, hp⟩ := he.polyP
    exact Ref.bind (hPolyMulVar_ref hp v) fun o x h' _ _ ho => hSimplified_ref ho

theorem hKMul_ref (c : R) {e : HScalar R} {s : Scalar R} {h : Heap R} (he : Rep 0 LS h.exps e s) :
    Ref lo LS (hKMul c e) h (kMul c s) := by
  unfold hKMul kMul
  refine hCheck_bind he ?_
  cases e with
  | k d => rw [he.k_inv]; exact Ref.pure Rep.k
  | var v => rw [he.var_inv]; exact hVarMul_ref v Rep.k
  | mono m =>
    obtain ⟨n, rfl, hm⟩ := Rep.mono_iff.mp he
    exact hMonoMul_ref hm Rep.k
  | poly p =>
    obtain ⟨q, rfl, hp⟩ := he.polyP
    exact hPolyMulK_ref hp c

theorem hMul_ref {a b : HScalar R} {x y : Scalar R} {h : Heap R} (ha : Rep 0 LS h.exps a x)
    (hb : Rep 0 LS h.exps b y) : Ref lo LS (hMul a b) h (x.mul y) := by
  cases a with
  | k c => rw [ha.k_inv]; exact hKMul_ref c hb
  | var v => rw [ha.var_inv]; exact hVarMul_ref v hb
  | mono m =>
    obtain ⟨n, rfl, hm⟩ := Rep.mono_iff.mp ha
    exact hMonoMul_ref hm hb
  | poly p =>
    obtain ⟨q, rfl, hp⟩ := ha.polyP
    exact hPolyMul_ref hp hb

/-! ## Minus, Power -/

theorem hMulF64_ref {a : HScalar R} {x : Scalar R} {h : Heap R} (ha : Rep 0 LS h.exps a x) (c : R) :
    Ref lo LS (hMulF64 a c) h (x.mulF64 c) := by
  cases a with
  | k d => rw [ha.k_inv]; exact hKMul_ref d Rep.k
  | var v =>
    rw [ha.var_inv]
    exact Ref.bind (hMul_ref Rep.var Rep.k) fun o x h' _ _ ho => hSimplified_ref ho
  | mono m =>
    obtain ⟨n, rfl, hm⟩ := Rep.mono_iff.mp ha
    exact hMonoMul_ref hm Rep.k
  | poly p =>
    obtain ⟨q, rfl, hp⟩ := ha.polyP
    exact Ref.bind (hMul_ref hp.polyS Rep.k) fun o x h' _ _ ho => hSimplified_ref ho

theorem hMinus_ref {a b : HScalar R} {x y : Scalar R} {h : Heap R} (ha : Rep lo LS h.exps a x)
    (hb : Rep 0 LS h.exps b y) : Ref lo LS (hMinus a b) h (x.minus y) := by
  unfold hMinus Scalar.minus
  refine hCheck_bind ha ?_
  refine hCheck_bind hb ?_
  exact Ref.bind (hMulF64_ref hb negOne) fun o z h' e1 _ ho => hPlus_ref (ha.mono e1) ho

theorem hPowLoop_ref {a : HScalar R} {x : Scalar R} (n : ℕ) : ∀ {h : Heap R} {b : HScalar R} {y : Scalar R},
    Rep 0 LS h.exps a x → Rep lo LS h.exps b y → Ref lo LS (hPowLoop a n b) h (powLoop x n y) := by
  induction n with
  | zero => intro h b y _ hb; exact Ref.pure hb
  | succ n ih =>
    intro h b y ha hb
    exact Ref.bind (hMul_ref hb.weaken ha) fun o z h' e1 _ ho => ih (ha.mono e1) ho

theorem hPower_ref {a : HScalar R} {x : Scalar R} {h : Heap R} (ha : Rep 0 LS h.exps a x) (n : ℤ) :
    Ref lo LS (hPower a n) h (x.power n) := by
  unfold hPower Scalar.power
  refine hCheck_bind ha ?_
  split
  · exact Ref.panic
  · exact hPowLoop_ref _ ha Rep.k

/-! ## Substitution -/

theorem hVarSubstitute_ref (v vIn : Var R) {s : HScalar R} {x : Scalar R} {h : Heap R} (hs : Rep lo LS h.exps s x) :
    Ref lo LS (hVarSubstitute v vIn s) h (v.substitute vIn x) := by
  unfold hVarSubstitute Var.substitute
  refine hCheck_bind (e := .var v) (lo1 := 0) Rep.var ?_
  refine hCheck_bind (e := .var vIn) (lo1 := 0) Rep.var ?_
  refine hCheck_bind hs ?_
  split
  · exact Ref.pure hs
  · exact Ref.pure Rep.var

theorem Rep.constList {α : Type} {h : ExpHeap} (l : List α) : Rep lo (Loader.const α).list h l l := by
  induction l with
  | nil => exact Rep.nil
  | cons a l ih => exact Rep.cons ⟨fun y hy => (by cases hy), rfl⟩ ih

theorem hMonoSubstitute_ref {m : HMono R} {n : Mono R} (vIn : Var R) {s : HScalar R} {x : Scalar R} {h : Heap R}
    (hm : Rep lo LM h.exps m n) (hs : Rep 0 LS h.exps s x) :
    Ref lo LS (hMonoSubstitute m vIn s) h (n.substitute vIn x) := by
  unfold hMonoSubstitute Mono.substitute
  refine hCheck_bind hm.toMono ?_
  refine hCheck_bind (e := .var vIn) (lo1 := 0) Rep.var ?_
  refine hCheck_bind hs ?_
  rw [hm.vars, hm.coeff]
  cases findVar vIn n.vars with
  | none => exact Ref.pure hm.toMono
  | some i =>
    refine Ref.readOk (a := n.exps) (congrArg (fun z : Mono R => Except.ok z.exps) hm.load) ?_
    refine Ref.foldl (lo1 := 0) _ (Rep.constList _) Rep.k fun a z b y h' e1 hz hb => ?_
    obtain rfl := hz.const
    refine Ref.bind0 (hVarSubstitute_ref a.1 vIn (hs.mono e1)) fun o z h2 e2 _ ho => ?_
    exact Ref.bind0 (hPower_ref ho a.2) fun o2 z2 h3 e3 _ ho2 => hMul_ref (hb.weaken.mono (e2.trans e3)) ho2

theorem hPolySubstitute_ref {p : HPoly R} {q : Poly R} (vIn : Var R) {s : HScalar R} {x : Scalar R} {h : Heap R}
    (hp : Rep lo LP h.exps p q) (hs : Rep 0 LS h.exps s x) :
    Ref lo LS (hPolySubstitute p vIn s) h (q.substitute vIn x) := by
  unfold hPolySubstitute Poly.substitute
  refine hCheck_bind hp.polyS ?_
  refine hCheck_bind (e := .var vIn) (lo1 := 0) Rep.var ?_
  refine hCheck_bind hs ?_
  refine Ref.bind (Ref.foldl p.monos hp.monos Rep.k fun a z b y h' e1 hz hb => ?_)
    fun o x h' _ _ ho => hSimplified_ref ho
  exact Ref.bind (hMonoSubstitute_ref vIn hz (hs.mono e1)) fun o z h2 e2 _ ho => hPlus_ref (hb.mono e2) ho

theorem hSubstitute_ref {a s : HScalar R} {x y : Scalar R} (vIn : Var R) {h : Heap R} (ha : Rep lo LS h.exps a x)
    (hs : Rep lo LS h.exps s y) : Ref lo LS (hSubstitute a vIn s) h (x.substitute vIn y) := by
  cases a with
  | k c => rw [ha.k_inv]; exact Ref.pure Rep.k
  | var v => rw [ha.var_inv]; exact hVarSubstitute_ref v vIn hs
  | mono m =>
    obtain ⟨n, rfl, hm⟩ := Rep.mono_iff.mp ha
    exact hMonoSubstitute_ref vIn hm hs.weaken
  | poly p =>
    obtain ⟨q, rfl, hp⟩ := ha.polyP
    exact hPolySubstitute_ref vIn hp hs.weaken

/-- Entries of a substitution map. -/
def LKV : Loader (Var R × HScalar R) (Var R × Scalar R) where
  addrs kv := LS.addrs kv.2
  load h kv := (kv.1, LS.load h kv.2)
  congr hx := by rw [LS.congr hx]

theorem Rep.subMap {h : ExpHeap} {sm : HSubMap R} {s : SubMap R} (hs : Rep lo LKV.list h sm s) :
    HSubMap.load h sm = s := hs.load

theorem hCheckMap_bind {lo1 : ℕ} {γ C : Type} {N : Loader γ C} {sm : HSubMap R} {s : SubMap R} {h : Heap R}
    {f : Unit → PM (Heap R) γ} {y : Go C} (hs : Rep lo1 LKV.list h.exps sm s) (h2 : Ref lo N (f ()) h y) :
    Ref lo N (hCheckMap sm >>= f) h (checkSubMap s >>= fun _ => y) :=
  Ref.readBind (congrArg checkSubMap hs.subMap) fun _ _ => h2

theorem Rep.find {h : ExpHeap} {sm : HSubMap R} {s : SubMap R} (hs : Rep lo LKV.list h sm s) (q : Var R → Bool) :
    (sm.find? (fun kv => q kv.1) = none ∧ s.find? (fun kv => q kv.1) = none) ∨
      ∃ kv kx, sm.find? (fun kv => q kv.1) = some kv ∧ s.find? (fun kv => q kv.1) = some kx ∧
        Rep lo LS h kv.2 kx.2 := by
  induction sm generalizing s with
  | nil => rw [hs.nil_inv]; exact Or.inl ⟨rfl, rfl⟩
  | cons a l ih =>
    obtain ⟨y, ys, rfl, h1, h2⟩ := hs.cons_inv
    have h3 : a.1 = y.1 := by rw [← h1.load]; rfl
    rw [List.find?_cons, List.find?_cons, h3]
    cases q y.1 with
    | true => exact Or.inr ⟨a, y, rfl, rfl, h1.valid, by rw [← h1.load]; rfl⟩
    | false => exact ih h2

theorem hVarSubstMap_ref (v : Var R) {sm : HSubMap R} {s : SubMap R} {h : Heap R} (hs : Rep lo LKV.list h.exps sm s) :
    Ref lo LS (hVarSubstMap v sm) h (v.substMap s) := by
  unfold hVarSubstMap Var.substMap SubMap.lookup
  refine hCheck_bind (e := .var v) (lo1 := 0) Rep.var ?_
  refine hCheckMap_bind hs ?_
  rcases hs.find (fun k => v.keyEq k) with ⟨h1, h2⟩ | ⟨kv, kx, h1, h2, h3⟩
  · rw [h1, h2]
    exact Ref.pure Rep.var
  · rw [h1, h2]
    exact Ref.pure h3

theorem hMonoSubstMap_ref {m : HMono R} {n : Mono R} {sm : HSubMap R} {s : SubMap R} {h : Heap R}
    (hm : Rep 0 LM h.exps m n) (hs : Rep 0 LKV.list h.exps sm s) :
    Ref lo LS (hMonoSubstMap m sm) h (n.substMap s) := by
  unfold hMonoSubstMap Mono.substMap
  refine hCheck_bind hm.toMono ?_
  refine hCheckMap_bind hs ?_
  rw [hm.vars, hm.coeff]
  refine Ref.readOk (a := n.exps) (congrArg (fun z : Mono R => Except.ok z.exps) hm.load) ?_
  refine Ref.foldl (lo1 := 0) _ (Rep.constList _) Rep.k fun a z b y h' e1 hz hb => ?_
  obtain rfl := hz.const
  refine Ref.bind0 (hVarSubstMap_ref a.1 (hs.mono e1)) fun o z h2 e2 _ ho => ?_
  exact Ref.bind0 (hPower_ref ho a.2) fun o2 z2 h3 e3 _ ho2 => hMul_ref (hb.weaken.mono (e2.trans e3)) ho2

theorem hPolySubstMap_ref {p : HPoly R} {q : Poly R} {sm : HSubMap R} {s : SubMap R} {h : Heap R}
    (hp : Rep 0 LP h.exps p q) (hs : Rep 0 LKV.list h.exps sm s) :
    Ref lo LS (hPolySubstMap p sm) h (q.substMap s) := by
  unfold hPolySubstMap Poly.substMap
  refine hCheck_bind hp.polyS ?_
  refine hCheckMap_bind hs ?_
  refine Ref.foldl p.monos hp.monos Rep.k fun a z b y h' e1 hz hb => ?_
  exact Ref.bind (hMonoSubstMap_ref hz (hs.mono e1)) fun o z h2 e2 _ ho => hPlus_ref (hb.mono e2) ho

theorem hSubstMap_ref {a : HScalar R} {x : Scalar R} {sm : HSubMap R} {s : SubMap R} {h : Heap R}
    (ha : Rep lo LS h.exps a x) (hs : Rep lo LKV.list h.exps sm s) : Ref lo LS (hSubstMap a sm) h (x.substMap s) := by
  cases a with
  | k c => rw [ha.k_inv]; exact Ref.pure Rep.k
  | var v => rw [ha.var_inv]; exact hVarSubstMap_ref v hs
  | mono m =>
    obtain ⟨n, rfl, hm⟩ := Rep.mono_iff.mp ha
    exact hMonoSubstMap_ref hm.weaken hs.weaken
  | poly p =>
    obtain ⟨q, rfl, hp⟩ := ha.polyP
    exact hPolySubstMap_ref hp.weaken hs.weaken

end Verif
