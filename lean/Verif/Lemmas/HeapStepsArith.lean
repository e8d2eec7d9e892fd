import Verif.Lemmas.HeapStepsRef

/-!
# Scalar arithmetic by goroutines refines scalar arithmetic on values
-/

set_option linter.unusedSectionVars false

namespace Verif

open GoNum

variable {R : Type} [GoNum R]

theorem sCheck_bind {γ C : Type} {N : Loader γ C} {e : HScalar R} {s : Scalar R} {h : View}
    {f : Unit → SM R γ} {y : Go C} (he : KRep LS h e s) (h2 : CRef N (f ()) h y) :
    CRef N (sCheck e >>= f) h (s.check >>= fun _ => y) :=
  CRef.readBind (fun _ hh => congrArg Scalar.check (he.at hh)) fun _ _ => h2

theorem new_known {K : View} {h : ExpHeap} {c : R} {l : List Int} {vs : List (Var R)} (hf : K.Fits h) :
    KRep LM (K.add h l hf) ⟨c, h.length, vs⟩ ⟨c, l, vs⟩ :=
  ⟨fun x hx => by
    have : x = h.length := by simpa [LM] using hx
    simp [View.add, this], new_mono_load⟩

theorem sNew_ref (m : Mono R) (K : View) : CRef LM (sNew m) K (.ok m) := by
  intro h hh hf
  exact ⟨congrArg Except.ok (new_known hf).load, fun b hb => by cases hb; exact (new_known (c := m.coeff) hf).known⟩

theorem sCopy_ref {m : HMono R} {n : Mono R} {h : View} (hm : KRep LM h m n) : CRef LM (sCopy m) h (.ok n) :=
  CRef.readOk (fun _ hh => congrArg Except.ok (hm.at hh)) (sNew_ref n h)

/-! ## Simplification -/

theorem sMonoSimplified_ref {m : HMono R} {n : Mono R} {h : View} (hm : KRep LM h m n) :
    CRef LS (sMonoSimplified m) h n.asSimplified := by
  have h1 : n.asSimplified = n.asSimplified >>= fun s => .ok s := by cases n.asSimplified <;> rfl
  rw [h1]
  unfold sMonoSimplified
  refine CRef.readBind (fun _ hh => congrArg Mono.asSimplified (hm.at hh)) fun s hs => ?_
  rcases mono_asSimplified_cases hs with ⟨c, rfl⟩ | ⟨v, rfl⟩ | rfl
  · exact CRef.pure KRep.k
  · exact CRef.pure KRep.var
  · exact CRef.pure hm.toMono

theorem sInsert_eq {h : View} {m : HMono R} {n : Mono R} (hm : KRep LM h m n) (l : List (HMono R)) :
    ∀ {ms : List (Mono R)}, KRep LM.list h l ms →
    (hInsert h.base m l).map (LM.list.load h.base) = insertMono n ms ∧
      ∀ r, hInsert h.base m l = .ok r → LM.list.Known h r := by
  induction l with
  | nil =>
    intro ms hl
    rw [hl.nil_inv]
    refine ⟨?_, fun r hr => ?_⟩
    · exact congrArg (fun x => Except.ok [x]) hm.load
    · cases hr
      exact (hm.cons KRep.nil).known
  | cons e es ih =>
    intro ms hl
    obtain ⟨y, ys, rfl, h1, h2⟩ := hl.cons_inv
    have h3 := ih h2
    have he : e.load h.base = y := h1.load
    have hn : m.load h.base = n := hm.load
    unfold hInsert insertMono
    rw [he, hn]
    cases hb : y.matchesFormOf n with
    | error er => exact ⟨rfl, fun r hr => by cases hr⟩
    | ok b =>
      simp only [Go.ok_bind]
      cases b with
      | true =>
        have h4 := (h1.withCoeff (add e.coeff m.coeff)).cons h2
        refine ⟨?_, fun r hr => ?_⟩
        · rw [← h1.coeff, ← hm.coeff]
          exact congrArg Except.ok h4.load
        · cases hr
          exact h4.known
      | false =>
        simp only [Bool.false_eq_true, if_false]
        cases hr : hInsert h.base m es with
        | error er =>
          rw [hr] at h3
          rw [← h3.1]
          exact ⟨rfl, fun r hr => by cases hr⟩
        | ok r =>
          rw [hr] at h3
          rw [← h3.1]
          have h4 := h1.cons (xs := LM.list.load h.base r) ⟨h3.2 r rfl, rfl⟩
          exact ⟨congrArg Except.ok h4.load, fun r' hr' => by cases hr'; exact h4.known⟩

theorem sSimplifyFold_eq {h : View} (l : List (HMono R)) :
    ∀ {ms : List (Mono R)} {c : R} {acc : List (HMono R)} {as : List (Mono R)}, KRep LM.list h l ms →
    KRep LM.list h acc as →
    (l.foldlM (hSimplifyStep h.base) (c, acc)).map (fun st => (st.1, LM.list.load h.base st.2)) =
        ms.foldlM simplifyStep (c, as) ∧
      ∀ st, l.foldlM (hSimplifyStep h.base) (c, acc) = .ok st → LM.list.Known h st.2 := by
  induction l with
  | nil =>
    intro ms c acc as hl ha
    rw [hl.nil_inv]
    refine ⟨congrArg (fun x => Except.ok (c, x)) ha.load, fun st hst => ?_⟩
    cases hst
    exact ha.known
  | cons m l ih =>
    intro ms c acc as hl ha
    obtain ⟨n, ns, rfl, h1, h2⟩ := hl.cons_inv
    rw [List.foldlM_cons, List.foldlM_cons]
    have sS : hSimplifyStep h.base (c, acc) m = if m.vars.isEmpty then .ok (add c m.coeff, acc) else
        (hInsert h.base m acc).map (fun r => (c, r)) := by
      unfold hSimplifyStep
      cases m.vars.isEmpty
      · simp only [Bool.false_eq_true, if_false]
        cases hInsert h.base m acc <;> rfl
      · rfl
    have sT : simplifyStep (c, as) n = if n.vars.isEmpty then .ok (add c n.coeff, as) else
        (insertMono n as).map (fun r => (c, r)) := by
      unfold simplifyStep Mono.isConstant
      cases n.vars.isEmpty
      · simp only [Bool.false_eq_true, if_false]
        cases insertMono n as <;> rfl
      · rfl
    rw [sS, sT, ← h1.vars, ← h1.coeff]
    cases m.vars.isEmpty with
    | true => exact ih h2 ha
    | false =>
      simp only [Bool.false_eq_true, if_false]
      have h3 := sInsert_eq h1 acc ha
      cases hr : hInsert h.base m acc with
      | error e =>
        rw [hr] at h3
        rw [← h3.1]
        exact ⟨rfl, fun st hst => by cases hst⟩
      | ok r =>
        rw [hr] at h3
        rw [← h3.1]
        exact ih h2 ⟨h3.2 r rfl, rfl⟩

theorem hInsert_congr {K : View} {h : ExpHeap} (hh : K.Holds h) {m : HMono R} (hm : LM.Known K m)
    (l : List (HMono R)) (hl : LM.list.Known K l) : hInsert h m l = hInsert K.base m l := by
  have hl' : ∀ a : HMono R, LM.Known K a → a.load h = a.load K.base := fun a ha => LM.congr fun x hx => hh x (ha x hx)
  induction l with
  | nil => rfl
  | cons e es ih =>
    unfold hInsert
    rw [hl' m hm, hl' e fun x hx => hl x (List.mem_append_left _ hx),
      ih fun x hx => hl x (List.mem_append_right _ hx)]

theorem sSimplifyFold_congr {K : View} {h : ExpHeap} (hh : K.Holds h) (l : List (HMono R)) :
    ∀ {c : R} {acc : List (HMono R)}, LM.list.Known K l → LM.list.Known K acc →
      l.foldlM (hSimplifyStep h) (c, acc) = l.foldlM (hSimplifyStep K.base) (c, acc) := by
  induction l with
  | nil => exact fun _ _ => rfl
  | cons m l ih =>
    intro c acc hl ha
    have hm : LM.Known K m := fun x hx => hl x (List.mem_append_left _ hx)
    have hl2 : LM.list.Known K l := fun x hx => hl x (List.mem_append_right _ hx)
    rw [List.foldlM_cons, List.foldlM_cons]
    have h1 : hSimplifyStep h (c, acc) m = hSimplifyStep K.base (c, acc) m := by
      unfold hSimplifyStep
      rw [hInsert_congr hh hm acc ha]
    rw [h1]
    cases hs : hSimplifyStep K.base (c, acc) m with
    | error e => rfl
    | ok st =>
      refine ih hl2 ?_
      unfold hSimplifyStep at hs
      split at hs
      · cases hs; exact ha
      · obtain ⟨r, hr, hs⟩ := Go.bind_eq_ok.mp hs
        cases hs
        exact (sInsert_eq (n := m.load K.base) ⟨hm, rfl⟩ acc ⟨ha, rfl⟩).2 r hr

theorem KRep.filterCoeff {h : View} {l : List (HMono R)} {ms : List (Mono R)} (hl : KRep LM.list h l ms)
    (q : R → Bool) : KRep LM.list h (l.filter (fun m => q m.coeff)) (ms.filter (fun m => q m.coeff)) := by
  induction l generalizing ms with
  | nil => rw [hl.nil_inv]; exact KRep.nil
  | cons a l ih =>
    obtain ⟨y, ys, rfl, h1, h2⟩ := hl.cons_inv
    rw [List.filter_cons, List.filter_cons, h1.coeff]
    split
    · exact h1.cons (ih h2)
    · exact ih h2

theorem KRep.isEmpty {α A : Type} {L : Loader α A} {h : View} {l : List α} {xs : List A} (hl : KRep L.list h l xs) :
    l.isEmpty = xs.isEmpty := by
  rw [← hl.load]
  cases l <;> rfl

theorem KRep.ofMonos {h : View} {l : List (HMono R)} {ms : List (Mono R)} (hl : KRep LM.list h l ms) :
    KRep LP h ⟨l⟩ ⟨ms⟩ :=
  ⟨fun x hx => hl.known x (by rw [← lp_addrs ⟨l⟩]; exact hx), congrArg Poly.mk hl.load⟩

theorem KRep.monos {h : View} {p : HPoly R} {q : Poly R} (hp : KRep LP h p q) : KRep LM.list h p.monos q.monos :=
  ⟨fun x hx => hp.known x (by rw [lp_addrs]; exact hx), by rw [← hp.load]; rfl⟩

theorem KRep.polyS {h : View} {p : HPoly R} {q : Poly R} (hp : KRep LP h p q) : KRep LS h (.poly p) (.poly q) :=
  ⟨hp.known, congrArg Scalar.poly hp.load⟩

theorem KRep.polyP {h : View} {p : HPoly R} {s : Scalar R} (hp : KRep LS h (.poly p) s) :
    ∃ q, s = .poly q ∧ KRep LP h p q := ⟨_, hp.load.symm, hp.known, rfl⟩

theorem sSimplifyOut_ref {c : R} {l : List (HMono R)} {ms : List (Mono R)} {h : View}
    (hl : KRep LM.list h l ms) : CRef LP (sSimplifyOut (c, l)) h (.ok (simplifiedTerms (c, ms))) := by
  have hf := hl.filterCoeff (fun c => !feq c zero)
  unfold sSimplifyOut simplifiedTerms
  cases hc : feq c zero with
  | true =>
    simp only [if_true, List.nil_append]
    rw [hf.isEmpty]
    split
    · exact CRef.bindOk (sNew_ref _ h) fun z h' hp hz => CRef.pure (hz.cons KRep.nil).ofMonos
    · exact CRef.pure hf.ofMonos
  | false =>
    simp only [Bool.false_eq_true, if_false]
    refine CRef.bindOk (sNew_ref _ h) fun z h' hp hz => ?_
    exact CRef.pure (hz.cons (hf.mono hp)).ofMonos

theorem sPolySimplify_ref {p : HPoly R} {q : Poly R} {h : View} (hp : KRep LP h p q) :
    CRef LP (sPolySimplify p) h q.simplify := by
  rw [simplify_eq]
  unfold sPolySimplify
  refine sCheck_bind hp.polyS ?_
  have h1 := sSimplifyFold_eq (h := h) p.monos (c := zero) hp.monos KRep.nil
  rw [← h1.1]
  have h2 : ∀ g : Heap R, h.Holds g.exps → p.monos.foldlM (hSimplifyStep g.exps) (zero, []) =
      p.monos.foldlM (hSimplifyStep h.base) (zero, []) := fun g hg =>
    sSimplifyFold_congr hg p.monos hp.monos.known (KRep.nil (L := LM)).known
  cases hr : p.monos.foldlM (hSimplifyStep h.base) (zero, []) with
  | error e =>
    rw [hr] at h2
    refine CRef.readBind (y := .error e) (g := fun _ => Except.error e) h2 fun a ha => by cases ha
  | ok st =>
    rw [hr] at h2
    exact CRef.readOk h2 (sSimplifyOut_ref ⟨h1.2 st hr, rfl⟩)

theorem KRep.singleton {α A : Type} {L : Loader α A} {h : View} {l : List α} {x : A} (hl : KRep L.list h l [x]) :
    ∃ a, l = [a] ∧ KRep L h a x := by
  cases l with
  | nil => exact absurd hl.nil_inv (by simp)
  | cons a l =>
    obtain ⟨y, ys, h1, h2, h3⟩ := hl.cons_inv
    cases l with
    | nil => cases h1; exact ⟨a, rfl, h2⟩
    | cons b l =>
      obtain ⟨z, zs, rfl, -, -⟩ := h3.cons_inv
      cases h1

theorem sPolySimplified_ref {p : HPoly R} {q : Poly R} {h : View} (hp : KRep LP h p q) :
    CRef LS (sPolySimplified p) h q.asSimplified := by
  rw [polySimplified_eq]
  unfold sPolySimplified
  refine CRef.bind (sPolySimplify_ref hp) fun r s h' _ _ hr => ?_
  have h1 : s.reduce = s.reduce >>= fun s => .ok s := by cases s.reduce <;> rfl
  rw [h1]
  refine CRef.readBind (fun _ hh => congrArg Poly.reduce (hr.at hh)) fun x hx => ?_
  rcases reduce_cases hx with ⟨c, rfl⟩ | ⟨v, rfl⟩ | ⟨m, hm, rfl⟩ | rfl
  · exact CRef.pure KRep.k
  · exact CRef.pure KRep.var
  · have h2 := hr.monos
    rw [hm] at h2
    obtain ⟨a, ha, h3⟩ := h2.singleton
    dsimp only
    rw [ha]
    exact CRef.pure h3.toMono
  · exact CRef.pure hr.polyS

theorem sSimplified_ref {e : HScalar R} {s : Scalar R} {h : View} (he : KRep LS h e s) :
    CRef LS (sSimplified e) h s.asSimplified := by
  cases e with
  | k c => rw [he.k_inv]; exact CRef.pure KRep.k
  | var v => rw [he.var_inv]; exact CRef.pure KRep.var
  | mono m =>
    obtain ⟨n, rfl, hm⟩ := KRep.mono_iff.mp he
    exact sMonoSimplified_ref hm
  | poly p =>
    obtain ⟨q, rfl, hp⟩ := he.polyP
    exact sPolySimplified_ref hp

/-! ## Plus -/

theorem KRep.findConst {h : View} {l : List (HMono R)} {ms : List (Mono R)} (hl : KRep LM.list h l ms) :
    l.findIdx? (·.vars.isEmpty) = ms.findIdx? (·.isConstant) := by
  rw [← hl.load]
  show _ = (l.map (HMono.load h.base)).findIdx? _
  rw [List.findIdx?_map]
  rfl

theorem sPolyPlusK_ref {p : HPoly R} {q : Poly R} {h : View} (hp : KRep LP h p q) (c : R) :
    CRef LS (sPolyPlusK p c) h (q.plusK c) := by
  unfold sPolyPlusK Poly.plusK
  refine sCheck_bind hp.polyS ?_
  rw [hp.monos.findConst]
  unfold Poly.constantIndex
  cases q.monos.findIdx? (·.isConstant) with
  | none =>
    refine CRef.bindOk (sNew_ref _ h) fun k h' he hk => ?_
    exact sPolySimplified_ref ((hp.monos.mono he).append (hk.cons KRep.nil)).ofMonos
  | some i => exact sPolySimplified_ref (hp.monos.modifyCoeff i (fun x => add x c)).ofMonos

theorem sPolyPlusVar_ref {p : HPoly R} {q : Poly R} {h : View} (hp : KRep LP h p q) (v : Var R) :
    CRef LS (sPolyPlusVar p v) h (q.plusVar v) := by
  unfold sPolyPlusVar Poly.plusVar
  refine sCheck_bind hp.polyS ?_
  refine sCheck_bind (e := .var v) KRep.var ?_
  refine CRef.readBind (fun _ hh => congrArg (fun x => Poly.variableIndex x v) (hp.at hh)) fun o _ => ?_
  cases o with
  | none =>
    refine CRef.bindOk (sNew_ref _ h) fun k h' he hk => ?_
    exact sPolySimplified_ref ((hp.monos.mono he).append (hk.cons KRep.nil)).ofMonos
  | some i => exact sPolySimplified_ref (hp.monos.modifyCoeff i (fun x => add x one)).ofMonos

theorem sPolyPlusPoly_ref {p r : HPoly R} {q s : Poly R} {h : View} (hp : KRep LP h p q)
    (hr : KRep LP h r s) : CRef LS (sPolyPlusPoly p r) h (q.plusPoly s) := by
  unfold sPolyPlusPoly Poly.plusPoly
  refine sCheck_bind hp.polyS ?_
  refine sCheck_bind hr.polyS ?_
  exact CRef.bind (sPolySimplified_ref (hp.monos.append hr.monos).ofMonos) fun o x h' _ _ ho => sSimplified_ref ho

theorem sPolyPlusMono_ref {p : HPoly R} {q : Poly R} {m : HMono R} {n : Mono R} {h : View}
    (hp : KRep LP h p q) (hm : KRep LM h m n) : CRef LS (sPolyPlusMono p m) h (q.plusMono n) := by
  unfold sPolyPlusMono Poly.plusMono
  refine sCheck_bind hp.polyS ?_
  refine sCheck_bind hm.toMono ?_
  refine CRef.bindOk (sCopy_ref hm) fun r h' he hr => ?_
  exact CRef.bind (sPolyPlusPoly_ref (hp.mono he) (hr.cons KRep.nil).ofMonos) fun o x h' _ _ ho => sSimplified_ref ho

theorem sMonoPlus_ref {m : HMono R} {n : Mono R} {e : HScalar R} {s : Scalar R} {h : View}
    (hm : KRep LM h m n) (he : KRep LS h e s) : CRef LS (sMonoPlus m e) h (n.plus s) := by
  unfold sMonoPlus Mono.plus
  refine sCheck_bind hm.toMono ?_
  refine sCheck_bind he ?_
  cases e with
  | k c =>
    rw [he.k_inv]
    dsimp only
    unfold Mono.isConstant
    rw [← hm.vars, ← hm.coeff]
    split
    · exact CRef.pure KRep.k
    · refine CRef.bindOk (sCopy_ref hm) fun m' h1 e1 hm' => ?_
      refine CRef.bindOk (sNew_ref _ h1) fun k h2 e2 hk => ?_
      exact sSimplified_ref ((hm'.mono e2).cons (hk.cons KRep.nil)).ofMonos.polyS
  | var v =>
    rw [he.var_inv]
    dsimp only
    refine CRef.readBind (fun _ hh => congrArg (fun x => Mono.isDegreeOne x v) (hm.at hh)) fun b _ => ?_
    refine CRef.bindOk (sCopy_ref hm) fun m' h1 e1 hm' => ?_
    cases b with
    | true =>
      have h3 := sSimplified_ref (h := h1) (hm'.withCoeff (add m'.coeff one)).toMono
      rw [hm'.coeff] at h3
      simpa [hm'.coeff] using h3
    | false =>
      refine CRef.bindOk (sNew_ref _ h1) fun k h2 e2 hk => ?_
      exact sSimplified_ref ((hm'.mono e2).cons (hk.cons KRep.nil)).ofMonos.polyS
  | mono r =>
    obtain ⟨t, rfl, hr⟩ := KRep.mono_iff.mp he
    dsimp only
    refine CRef.readBind (y := n.matchesFormOf t) ?_ fun b _ => ?_
    · intro g hg
      rw [show m.load g.exps = n from hm.at hg, show r.load g.exps = t from hr.at hg]
    refine CRef.bindOk (sCopy_ref hm) fun m' h1 e1 hm' => ?_
    cases b with
    | true =>
      have h3 := sSimplified_ref (h := h1) (hm'.withCoeff (add m'.coeff r.coeff)).toMono
      rw [hm'.coeff, hr.coeff] at h3
      simpa [hm'.coeff, hr.coeff] using h3
    | false => exact sSimplified_ref (hm'.cons ((hr.mono e1).cons KRep.nil)).ofMonos.polyS
  | poly p =>
    obtain ⟨q, rfl, hp⟩ := he.polyP
    dsimp only
    refine CRef.bindOk (sCopy_ref hm) fun m' h1 e1 hm' => ?_
    exact CRef.bind (sPolyPlusMono_ref (hp.mono e1) hm') fun o x h' _ _ ho => sSimplified_ref ho

theorem sPolyPlus_ref {p : HPoly R} {q : Poly R} {e : HScalar R} {s : Scalar R} {h : View}
    (hp : KRep LP h p q) (he : KRep LS h e s) : CRef LS (sPolyPlus p e) h (q.plus s) := by
  cases e with
  | k c => rw [he.k_inv]; exact sPolyPlusK_ref hp c
  | var v => rw [he.var_inv]; exact sPolyPlusVar_ref hp v
  | mono m =>
    obtain ⟨n, rfl, hm⟩ := KRep.mono_iff.mp he
    exact sPolyPlusMono_ref hp hm
  | poly r =>
    obtain ⟨t, rfl, hr⟩ := he.polyP
    exact sPolyPlusPoly_ref hp hr

theorem sVarPlus_ref (v : Var R) {e : HScalar R} {s : Scalar R} {h : View} (he : KRep LS h e s) :
    CRef LS (sVarPlus v e) h (v.plus s) := by
  unfold sVarPlus Var.plus
  refine sCheck_bind (e := .var v) KRep.var ?_
  cases e with
  | k c =>
    rw [he.k_inv]
    refine CRef.bindOk (sNew_ref _ h) fun x h1 e1 hx => ?_
    refine CRef.bindOk (sNew_ref _ h1) fun k h2 e2 hk => ?_
    exact sSimplified_ref ((hx.mono e2).cons (hk.cons KRep.nil)).ofMonos.polyS
  | var w =>
    rw [he.var_inv]
    dsimp only
    split
    · refine CRef.bindOk (sNew_ref _ h) fun x h1 e1 hx => ?_
      exact sSimplified_ref hx.toMono
    · refine CRef.bindOk (sNew_ref _ h) fun x h1 e1 hx => ?_
      refine CRef.bindOk (sNew_ref _ h1) fun k h2 e2 hk => ?_
      exact sSimplified_ref ((hx.mono e2).cons (hk.cons KRep.nil)).ofMonos.polyS
  | mono m =>
    obtain ⟨n, rfl, hm⟩ := KRep.mono_iff.mp he
    exact CRef.bind (sMonoPlus_ref hm KRep.var) fun o x h' _ _ ho => sSimplified_ref ho
  | poly p =>
    obtain ⟨q, rfl, hp⟩ := he.polyP
    exact CRef.bind (sPolyPlusVar_ref hp v) fun o x h' _ _ ho => sSimplified_ref ho

theorem sKPlus_ref (c : R) {e : HScalar R} {s : Scalar R} {h : View} (he : KRep LS h e s) :
    CRef LS (sKPlus c e) h (kPlus c s) := by
  unfold sKPlus kPlus
  refine sCheck_bind he ?_
  cases e with
  | k d => rw [he.k_inv]; exact CRef.pure KRep.k
  | var v => rw [he.var_inv]; exact sVarPlus_ref v KRep.k
  | mono m =>
    obtain ⟨n, rfl, hm⟩ := KRep.mono_iff.mp he
    exact sMonoPlus_ref hm KRep.k
  | poly p =>
    obtain ⟨q, rfl, hp⟩ := he.polyP
    exact sPolyPlusK_ref hp c

theorem sPlus_ref {a b : HScalar R} {x y : Scalar R} {h : View} (ha : KRep LS h a x)
    (hb : KRep LS h b y) : CRef LS (sPlus a b) h (x.plus y) := by
  cases a with
  | k c => rw [ha.k_inv]; exact sKPlus_ref c hb
  | var v => rw [ha.var_inv]; exact sVarPlus_ref v hb
  | mono m =>
    obtain ⟨n, rfl, hm⟩ := KRep.mono_iff.mp ha
    exact sMonoPlus_ref hm hb
  | poly p =>
    obtain ⟨q, rfl, hp⟩ := ha.polyP
    exact sPolyPlus_ref hp hb

/-! ## Multiply -/

theorem sMonoMulK_ref {m : HMono R} {n : Mono R} {h : View} (hm : KRep LM h m n) (c : R) :
    CRef LM (sMonoMulK m c) h (.ok (n.mulK c)) := by
  unfold sMonoMulK Mono.mulK
  refine CRef.bindOk (sCopy_ref hm) fun m' h1 e1 hm' => ?_
  rw [← hm'.coeff]
  exact CRef.pure (hm'.withCoeff _)

theorem sMonoMulVar_ref {m : HMono R} {n : Mono R} {h : View} (hm : KRep LM h m n) (v : Var R) :
    CRef LM (sMonoMulVar m v) h (.ok (n.mulVar v)) := by
  cases hf : findVar v n.vars with
  | none =>
    unfold sMonoMulVar Mono.mulVar
    rw [hm.vars, hf]
    refine CRef.bindOk (sCopy_ref hm) fun m' h1 e1 hm' => ?_
    refine CRef.readOk (fun _ hh => congrArg Except.ok (hm'.at hh)) ?_
    rw [hm'.coeff, hm'.vars]
    exact sNew_ref _ h1
  | some i =>
    intro g hg g2 hg2 hf2
    have hl : m.load g.exps = n := hm.at hg
    have hv : findVar v m.vars = some i := by rw [hm.vars, hf]
    show CRefW LM (match findVar v m.vars with
      | none => _
      | some i => _) _ _ _
    rw [hv]
    refine ⟨by simp, ?_⟩
    unfold Mono.mulVar
    rw [hf]
    refine ⟨?_, fun b hb x hx => ?_⟩
    rotate_left
    · cases hb
      have : x = g2.exps.length := by simpa [LM] using hx
      simp [View.write, View.add, this]
    show Except.ok (HMono.load (List.modify (g2.exps ++ [_]) g2.exps.length _) _) = _
    rw [modify_new, new_mono_load, hl]

theorem sMonoMulMono_ref {m r : HMono R} {n t : Mono R} {h : View} (hm : KRep LM h m n)
    (hr : KRep LM h r t) : CRef LM (sMonoMulMono m r) h (n.mulMono t) := by
  have h1 : n.mulMono t = n.mulMono t >>= fun s => .ok s := by cases n.mulMono t <;> rfl
  rw [h1]
  unfold sMonoMulMono
  refine CRef.readBind (y := n.mulMono t) ?_ fun q _ => sNew_ref q h
  intro g hg
  rw [show m.load g.exps = n from hm.at hg, show r.load g.exps = t from hr.at hg]

theorem sPolyMulK_ref {p : HPoly R} {q : Poly R} {h : View} (hp : KRep LP h p q) (c : R) :
    CRef LS (sPolyMulK p c) h (q.mulK c) := by
  unfold sPolyMulK Poly.mulK
  refine sCheck_bind hp.polyS ?_
  have h1 := CRef.traverse (M := LM) (f := fun m => sMonoMulK m c) (g := fun n => .ok (n.mulK c)) p.monos hp.monos
    fun a x h' _ ha => sMonoMulK_ref ha c
  rw [mapM_pure_map] at h1
  exact CRef.bindOk h1 fun ms h' _ hms => sPolySimplified_ref hms.ofMonos

theorem sPolyMulVar_ref {p : HPoly R} {q : Poly R} {h : View} (hp : KRep LP h p q) (v : Var R) :
    CRef LS (sPolyMulVar p v) h (q.mulVar v) := by
  unfold sPolyMulVar Poly.mulVar
  refine sCheck_bind hp.polyS ?_
  refine sCheck_bind (e := .var v) KRep.var ?_
  have h1 := CRef.traverse (M := LM) (f := fun m => sMonoMulVar m v) (g := fun n => .ok (n.mulVar v)) p.monos hp.monos
    fun a x h' _ ha => sMonoMulVar_ref ha v
  rw [mapM_pure_map] at h1
  exact CRef.bindOk h1 fun ms h' _ hms => sPolySimplified_ref hms.ofMonos

theorem sPolyMulMono_ref {p : HPoly R} {q : Poly R} {m : HMono R} {n : Mono R} {h : View}
    (hp : KRep LP h p q) (hm : KRep LM h m n) : CRef LS (sPolyMulMono p m) h (q.mulMono n) := by
  unfold sPolyMulMono Poly.mulMono
  refine sCheck_bind hp.polyS ?_
  refine sCheck_bind hm.toMono ?_
  exact CRef.bind (CRef.traverse (M := LM) (f := fun m' => sMonoMulMono m' m) (g := fun x => x.mulMono n) p.monos hp.monos
    fun a x h' he ha => sMonoMulMono_ref ha (hm.mono he)) fun ms z h' _ _ hms => sPolySimplified_ref hms.ofMonos

theorem sPolyMulPoly_ref {p r : HPoly R} {q s : Poly R} {h : View} (hp : KRep LP h p q)
    (hr : KRep LP h r s) : CRef LS (sPolyMulPoly p r) h (q.mulPoly s) := by
  unfold sPolyMulPoly Poly.mulPoly
  refine sCheck_bind hp.polyS ?_
  refine sCheck_bind hr.polyS ?_
  refine CRef.bind (CRef.foldl r.monos hr.monos KRep.k fun a x b y h' he ha hb => ?_)
    fun o x h' _ _ ho => sSimplified_ref ho
  exact CRef.bind (sPolyMulMono_ref (hp.mono he) ha) fun o z h'' e2 _ ho => sPlus_ref (hb.mono e2) ho

theorem sPolyMul_ref {p : HPoly R} {q : Poly R} {e : HScalar R} {s : Scalar R} {h : View}
    (hp : KRep LP h p q) (he : KRep LS h e s) : CRef LS (sPolyMul p e) h (q.mul s) := by
  cases e with
  | k c => rw [he.k_inv]; exact sPolyMulK_ref hp c
  | var v => rw [he.var_inv]; exact sPolyMulVar_ref hp v
  | mono m =>
    obtain ⟨n, rfl, hm⟩ := KRep.mono_iff.mp he
    exact sPolyMulMono_ref hp hm
  | poly r =>
    obtain ⟨t, rfl, hr⟩ := he.polyP
    exact sPolyMulPoly_ref hp hr

theorem sMonoMul_ref {m : HMono R} {n : Mono R} {e : HScalar R} {s : Scalar R} {h : View}
    (hm : KRep LM h m n) (he : KRep LS h e s) : CRef LS (sMonoMul m e) h (n.mul s) := by
  unfold sMonoMul Mono.mul
  refine sCheck_bind hm.toMono ?_
  refine sCheck_bind he ?_
  cases e with
  | k c =>
    rw [he.k_inv]
    exact CRef.bindOk (sMonoMulK_ref hm c) fun x h' _ hx => CRef.pure hx.toMono
  | var v =>
    rw [he.var_inv]
    exact CRef.bindOk (sMonoMulVar_ref hm v) fun x h' _ hx => CRef.pure hx.toMono
  | mono r =>
    obtain ⟨t, rfl, hr⟩ := KRep.mono_iff.mp he
    exact CRef.bind (sMonoMulMono_ref hm hr) fun x z h' _ _ hx => CRef.pure hx.toMono
  | poly p =>
    obtain ⟨q, rfl, hp⟩ := he.polyP
    exact sPolyMulMono_ref hp hm

theorem sVarMul_ref (v : Var R) {e : HScalar R} {s : Scalar R} {h : View} (he : KRep LS h e s) :
    CRef LS (sVarMul v e) h (v.mul s) := by
  unfold sVarMul Var.mul
  refine sCheck_bind (e := .var v) KRep.var ?_
  refine sCheck_bind he ?_
  cases e with
  | k c =>
    rw [he.k_inv]
    exact CRef.bindOk (sNew_ref _ h) fun x h1 e1 hx => sSimplified_ref hx.toMono
  | var w =>
    rw [he.var_inv]
    dsimp only
    split
    · exact CRef.bindOk (sNew_ref _ h) fun x h1 e1 hx => sSimplified_ref hx.toMono
    · exact CRef.bindOk (sNew_ref _ h) fun x h1 e1 hx => sSimplified_ref hx.toMono
  | mono m =>
    obtain ⟨n, rfl, hm⟩ := KRep.mono_iff.mp he
    exact CRef.bind (sMonoMul_ref hm KRep.var) fun o x h' _ _ ho => sSimplified_ref ho
  | poly p =>
    obtain ⟨q, rfl, hp⟩ := he.polyP
    exact CRef.bind (sPolyMulVar_ref hp v) fun o x h' _ _ ho => sSimplified_ref ho

theorem sKMul_ref (c : R) {e : HScalar R} {s : Scalar R} {h : View} (he : KRep LS h e s) :
    CRef LS (sKMul c e) h (kMul c s) := by
  unfold sKMul kMul
  refine sCheck_bind he ?_
  cases e with
  | k d => rw [he.k_inv]; exact CRef.pure KRep.k
  | var v => rw [he.var_inv]; exact sVarMul_ref v KRep.k
  | mono m =>
    obtain ⟨n, rfl, hm⟩ := KRep.mono_iff.mp he
    exact sMonoMul_ref hm KRep.k
  | poly p =>
    obtain ⟨q, rfl, hp⟩ := he.polyP
    exact sPolyMulK_ref hp c

theorem sMul_ref {a b : HScalar R} {x y : Scalar R} {h : View} (ha : KRep LS h a x)
    (hb : KRep LS h b y) : CRef LS (sMul a b) h (x.mul y) := by
  cases a with
  | k c => rw [ha.k_inv]; exact sKMul_ref c hb
  | var v => rw [ha.var_inv]; exact sVarMul_ref v hb
  | mono m =>
    obtain ⟨n, rfl, hm⟩ := KRep.mono_iff.mp ha
    exact sMonoMul_ref hm hb
  | poly p =>
    obtain ⟨q, rfl, hp⟩ := ha.polyP
    exact sPolyMul_ref hp hb

/-! ## Minus, Power -/

theorem sMulF64_ref {a : HScalar R} {x : Scalar R} {h : View} (ha : KRep LS h a x) (c : R) :
    CRef LS (sMulF64 a c) h (x.mulF64 c) := by
  cases a with
  | k d => rw [ha.k_inv]; exact sKMul_ref d KRep.k
  | var v =>
    rw [ha.var_inv]
    exact CRef.bind (sMul_ref KRep.var KRep.k) fun o x h' _ _ ho => sSimplified_ref ho
  | mono m =>
    obtain ⟨n, rfl, hm⟩ := KRep.mono_iff.mp ha
    exact sMonoMul_ref hm KRep.k
  | poly p =>
    obtain ⟨q, rfl, hp⟩ := ha.polyP
    exact CRef.bind (sMul_ref hp.polyS KRep.k) fun o x h' _ _ ho => sSimplified_ref ho

theorem sMinus_ref {a b : HScalar R} {x y : Scalar R} {h : View} (ha : KRep LS h a x)
    (hb : KRep LS h b y) : CRef LS (sMinus a b) h (x.minus y) := by
  unfold sMinus Scalar.minus
  refine sCheck_bind ha ?_
  refine sCheck_bind hb ?_
  exact CRef.bind (sMulF64_ref hb negOne) fun o z h' e1 _ ho => sPlus_ref (ha.mono e1) ho

theorem sPowLoop_ref {a : HScalar R} {x : Scalar R} (n : ℕ) : ∀ {h : View} {b : HScalar R} {y : Scalar R},
    KRep LS h a x → KRep LS h b y → CRef LS (sPowLoop a n b) h (powLoop x n y) := by
  induction n with
  | zero => intro h b y _ hb; exact CRef.pure hb
  | succ n ih =>
    intro h b y ha hb
    exact CRef.bind (sMul_ref hb ha) fun o z h' e1 _ ho => ih (ha.mono e1) ho

theorem sPower_ref {a : HScalar R} {x : Scalar R} {h : View} (ha : KRep LS h a x) (n : ℤ) :
    CRef LS (sPower a n) h (x.power n) := by
  unfold sPower Scalar.power
  refine sCheck_bind ha ?_
  split
  · exact CRef.panic
  · exact sPowLoop_ref _ ha KRep.k

/-! ## Substitution -/

theorem sVarSubstitute_ref (v vIn : Var R) {s : HScalar R} {x : Scalar R} {h : View} (hs : KRep LS h s x) :
    CRef LS (sVarSubstitute v vIn s) h (v.substitute vIn x) := by
  unfold sVarSubstitute Var.substitute
  refine sCheck_bind (e := .var v) KRep.var ?_
  refine sCheck_bind (e := .var vIn) KRep.var ?_
  refine sCheck_bind hs ?_
  split
  · exact CRef.pure hs
  · exact CRef.pure KRep.var

theorem KRep.constList {α : Type} {h : View} (l : List α) : KRep (Loader.const α).list h l l := by
  induction l with
  | nil => exact KRep.nil
  | cons a l ih => exact KRep.cons ⟨fun y hy => (by cases hy), rfl⟩ ih

theorem sMonoSubstitute_ref {m : HMono R} {n : Mono R} (vIn : Var R) {s : HScalar R} {x : Scalar R} {h : View}
    (hm : KRep LM h m n) (hs : KRep LS h s x) :
    CRef LS (sMonoSubstitute m vIn s) h (n.substitute vIn x) := by
  unfold sMonoSubstitute Mono.substitute
  refine sCheck_bind hm.toMono ?_
  refine sCheck_bind (e := .var vIn) KRep.var ?_
  refine sCheck_bind hs ?_
  rw [hm.vars, hm.coeff]
  cases findVar vIn n.vars with
  | none => exact CRef.pure hm.toMono
  | some i =>
    refine CRef.readOk (a := n.exps) (fun _ hh => congrArg (fun z : Mono R => Except.ok z.exps) (hm.at hh)) ?_
    refine CRef.foldl _ (KRep.constList _) KRep.k fun a z b y h' e1 hz hb => ?_
    obtain rfl := hz.const
    refine CRef.bind (sVarSubstitute_ref a.1 vIn (hs.mono e1)) fun o z h2 e2 _ ho => ?_
    exact CRef.bind (sPower_ref ho a.2) fun o2 z2 h3 e3 _ ho2 => sMul_ref (hb.mono (e2.trans e3)) ho2

theorem sPolySubstitute_ref {p : HPoly R} {q : Poly R} (vIn : Var R) {s : HScalar R} {x : Scalar R} {h : View}
    (hp : KRep LP h p q) (hs : KRep LS h s x) :
    CRef LS (sPolySubstitute p vIn s) h (q.substitute vIn x) := by
  unfold sPolySubstitute Poly.substitute
  refine sCheck_bind hp.polyS ?_
  refine sCheck_bind (e := .var vIn) KRep.var ?_
  refine sCheck_bind hs ?_
  refine CRef.bind (CRef.foldl p.monos hp.monos KRep.k fun a z b y h' e1 hz hb => ?_)
    fun o x h' _ _ ho => sSimplified_ref ho
  exact CRef.bind (sMonoSubstitute_ref vIn hz (hs.mono e1)) fun o z h2 e2 _ ho => sPlus_ref (hb.mono e2) ho

theorem sSubstitute_ref {a s : HScalar R} {x y : Scalar R} (vIn : Var R) {h : View} (ha : KRep LS h a x)
    (hs : KRep LS h s y) : CRef LS (sSubstitute a vIn s) h (x.substitute vIn y) := by
  cases a with
  | k c => rw [ha.k_inv]; exact CRef.pure KRep.k
  | var v => rw [ha.var_inv]; exact sVarSubstitute_ref v vIn hs
  | mono m =>
    obtain ⟨n, rfl, hm⟩ := KRep.mono_iff.mp ha
    exact sMonoSubstitute_ref vIn hm hs
  | poly p =>
    obtain ⟨q, rfl, hp⟩ := ha.polyP
    exact sPolySubstitute_ref vIn hp hs

theorem KRep.subMap {h : View} {sm : HSubMap R} {s : SubMap R} (hs : KRep LKV.list h sm s) :
    HSubMap.load h.base sm = s := hs.load

theorem sCheckMap_bind {γ C : Type} {N : Loader γ C} {sm : HSubMap R} {s : SubMap R} {h : View}
    {f : Unit → SM R γ} {y : Go C} (hs : KRep LKV.list h sm s) (h2 : CRef N (f ()) h y) :
    CRef N (sCheckMap sm >>= f) h (checkSubMap s >>= fun _ => y) :=
  CRef.readBind (fun _ hh => congrArg checkSubMap (hs.at hh)) fun _ _ => h2

theorem KRep.find {h : View} {sm : HSubMap R} {s : SubMap R} (hs : KRep LKV.list h sm s) (q : Var R → Bool) :
    (sm.find? (fun kv => q kv.1) = none ∧ s.find? (fun kv => q kv.1) = none) ∨
      ∃ kv kx, sm.find? (fun kv => q kv.1) = some kv ∧ s.find? (fun kv => q kv.1) = some kx ∧
        KRep LS h kv.2 kx.2 := by
  induction sm generalizing s with
  | nil => rw [hs.nil_inv]; exact Or.inl ⟨rfl, rfl⟩
  | cons a l ih =>
    obtain ⟨y, ys, rfl, h1, h2⟩ := hs.cons_inv
    have h3 : a.1 = y.1 := by rw [← h1.load]; rfl
    rw [List.find?_cons, List.find?_cons, h3]
    cases q y.1 with
    | true => exact Or.inr ⟨a, y, rfl, rfl, h1.known, by rw [← h1.load]; rfl⟩
    | false => exact ih h2

theorem sVarSubstMap_ref (v : Var R) {sm : HSubMap R} {s : SubMap R} {h : View} (hs : KRep LKV.list h sm s) :
    CRef LS (sVarSubstMap v sm) h (v.substMap s) := by
  unfold sVarSubstMap Var.substMap SubMap.lookup
  refine sCheck_bind (e := .var v) KRep.var ?_
  refine sCheckMap_bind hs ?_
  rcases hs.find (fun k => v.keyEq k) with ⟨h1, h2⟩ | ⟨kv, kx, h1, h2, h3⟩
  · rw [h1, h2]
    exact CRef.pure KRep.var
  · rw [h1, h2]
    exact CRef.pure h3

theorem sMonoSubstMap_ref {m : HMono R} {n : Mono R} {sm : HSubMap R} {s : SubMap R} {h : View}
    (hm : KRep LM h m n) (hs : KRep LKV.list h sm s) :
    CRef LS (sMonoSubstMap m sm) h (n.substMap s) := by
  unfold sMonoSubstMap Mono.substMap
  refine sCheck_bind hm.toMono ?_
  refine sCheckMap_bind hs ?_
  rw [hm.vars, hm.coeff]
  refine CRef.readOk (a := n.exps) (fun _ hh => congrArg (fun z : Mono R => Except.ok z.exps) (hm.at hh)) ?_
  refine CRef.foldl _ (KRep.constList _) KRep.k fun a z b y h' e1 hz hb => ?_
  obtain rfl := hz.const
  refine CRef.bind (sVarSubstMap_ref a.1 (hs.mono e1)) fun o z h2 e2 _ ho => ?_
  exact CRef.bind (sPower_ref ho a.2) fun o2 z2 h3 e3 _ ho2 => sMul_ref (hb.mono (e2.trans e3)) ho2

theorem sPolySubstMap_ref {p : HPoly R} {q : Poly R} {sm : HSubMap R} {s : SubMap R} {h : View}
    (hp : KRep LP h p q) (hs : KRep LKV.list h sm s) :
    CRef LS (sPolySubstMap p sm) h (q.substMap s) := by
  unfold sPolySubstMap Poly.substMap
  refine sCheck_bind hp.polyS ?_
  refine sCheckMap_bind hs ?_
  refine CRef.foldl p.monos hp.monos KRep.k fun a z b y h' e1 hz hb => ?_
  exact CRef.bind (sMonoSubstMap_ref hz (hs.mono e1)) fun o z h2 e2 _ ho => sPlus_ref (hb.mono e2) ho

theorem sSubstMap_ref {a : HScalar R} {x : Scalar R} {sm : HSubMap R} {s : SubMap R} {h : View}
    (ha : KRep LS h a x) (hs : KRep LKV.list h sm s) : CRef LS (sSubstMap a sm) h (x.substMap s) := by
  cases a with
  | k c => rw [ha.k_inv]; exact CRef.pure KRep.k
  | var v => rw [ha.var_inv]; exact sVarSubstMap_ref v hs
  | mono m =>
    obtain ⟨n, rfl, hm⟩ := KRep.mono_iff.mp ha
    exact sMonoSubstMap_ref hm hs
  | poly p =>
    obtain ⟨q, rfl, hp⟩ := ha.polyP
    exact sPolySubstMap_ref hp hs

end Verif
