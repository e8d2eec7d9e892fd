import Verif.Lemmas.HeapRef

/-!
# Which slices the terms of a scalar expression have

`T` says which factors belong to an exponent slice.  Arithmetic keeps the property that monomials with the
same exponent slice have the same factors (`CS`), and its results have different slices in different terms
(`Own`): terms with the same slice match, so `Simplify` merges them.
-/

set_option linter.unusedSectionVars false

namespace Verif

open GoNum

variable {R : Type} [GoNum R] {α β γ : Type}

/-- The monomials of a scalar expression. -/
def HScalar.monos : HScalar R → List (HMono R)
  | .k _ => []
  | .var _ => []
  | .mono m => [m]
  | .poly p => p.monos

omit [GoNum R] in
theorem HScalar.addrs_eq (e : HScalar R) : e.addrs = e.monos.map (·.addr) := by cases e <;> rfl

/-- The factors that belong to an exponent slice. -/
abbrev Tags (R : Type) := ℕ → List (Var R)

/-- The slice exists and belongs to these factors. -/
def CM (T : Tags R) (n : ℕ) (m : HMono R) : Prop := m.addr < n ∧ T m.addr = m.vars

def CL (T : Tags R) (n : ℕ) (l : List (HMono R)) : Prop := ∀ m ∈ l, CM T n m

def CS (T : Tags R) (n : ℕ) (e : HScalar R) : Prop := CL T n e.monos

/-- Moreover different terms have different slices. -/
def Own (T : Tags R) (n : ℕ) (e : HScalar R) : Prop := CS T n e ∧ e.addrs.Nodup

/-- `T'` extends `T`. -/
def TagAgree (n : ℕ) (T T' : Tags R) : Prop := ∀ a < n, T' a = T a

theorem TagAgree.refl (n : ℕ) (T : Tags R) : TagAgree n T T := fun _ _ => rfl

theorem TagAgree.trans {n n' : ℕ} {T T' T'' : Tags R} (h : TagAgree n T T') (h' : TagAgree n' T' T'') (hn : n ≤ n') :
    TagAgree n T T'' := fun a ha => (h' a (ha.trans_le hn)).trans (h a ha)

theorem CM.mono {T T' : Tags R} {n n' : ℕ} {m : HMono R} (h : CM T n m) (ha : TagAgree n T T') (hn : n ≤ n') :
    CM T' n' m := ⟨h.1.trans_le hn, (ha _ h.1).trans h.2⟩

theorem CL.mono {T T' : Tags R} {n n' : ℕ} {l : List (HMono R)} (h : CL T n l) (ha : TagAgree n T T') (hn : n ≤ n') :
    CL T' n' l := fun m hm => (h m hm).mono ha hn

theorem CS.mono {T T' : Tags R} {n n' : ℕ} {e : HScalar R} (h : CS T n e) (ha : TagAgree n T T') (hn : n ≤ n') :
    CS T' n' e := CL.mono h ha hn

theorem Own.mono {T T' : Tags R} {n n' : ℕ} {e : HScalar R} (h : Own T n e) (ha : TagAgree n T T') (hn : n ≤ n') :
    Own T' n' e := ⟨h.1.mono ha hn, h.2⟩

theorem CL.append {T : Tags R} {n : ℕ} {l l' : List (HMono R)} (h : CL T n l) (h' : CL T n l') : CL T n (l ++ l') :=
  fun m hm => (List.mem_append.mp hm).elim (h m) (h' m)

theorem CL.cons {T : Tags R} {n : ℕ} {m : HMono R} {l : List (HMono R)} (h : CM T n m) (h' : CL T n l) :
    CL T n (m :: l) := fun x hx => (List.mem_cons.mp hx).elim (fun he => he ▸ h) (h' x)

theorem CL.nil {T : Tags R} {n : ℕ} : CL T n ([] : List (HMono R)) := fun m hm => (by cases hm)

theorem CS.poly {T : Tags R} {n : ℕ} {l : List (HMono R)} (h : CL T n l) : CS T n (.poly ⟨l⟩) := h

theorem Own.k {T : Tags R} {n : ℕ} {c : R} : Own T n (.k c) := ⟨CL.nil, List.nodup_nil⟩
theorem Own.var {T : Tags R} {n : ℕ} {v : Var R} : Own T n (.var v) := ⟨CL.nil, List.nodup_nil⟩
theorem Own.mono1 {T : Tags R} {n : ℕ} {m : HMono R} (h : CM T n m) : Own T n (.mono m) :=
  ⟨CL.cons h CL.nil, List.nodup_singleton _⟩

/-- The call keeps the slices that exist, and its result has the property `Q`. -/
def Keeps (T : Tags R) (x : PM (Heap R) β) (h : Heap R) (Q : Tags R → ℕ → β → Prop) : Prop :=
  ∃ T', TagAgree h.exps.length T T' ∧ h.exps.length ≤ (x h).2.exps.length ∧
    ∀ b, (x h).1 = .ok b → Q T' (x h).2.exps.length b

variable {T : Tags R} {h : Heap R}

theorem Keeps.pure {b : β} {Q : Tags R → ℕ → β → Prop} (hb : Q T h.exps.length b) : Keeps T (pure b) h Q :=
  ⟨T, TagAgree.refl _ _, le_rfl, fun b' hb' => by cases hb'; exact hb⟩

theorem Keeps.panic {e : Err} {Q : Tags R → ℕ → β → Prop} : Keeps T (PM.panic e) h Q :=
  ⟨T, TagAgree.refl _ _, le_rfl, fun b' hb' => by cases hb'⟩

theorem Keeps.weaken {x : PM (Heap R) β} {Q Q' : Tags R → ℕ → β → Prop} (h1 : Keeps T x h Q)
    (h2 : ∀ T' n b, TagAgree h.exps.length T T' → h.exps.length ≤ n → Q T' n b → Q' T' n b) : Keeps T x h Q' := by
  obtain ⟨T', ha, hl, hq⟩ := h1
  exact ⟨T', ha, hl, fun b hb => h2 _ _ _ ha hl (hq b hb)⟩

theorem Keeps.bind {x : PM (Heap R) β} {f : β → PM (Heap R) γ} {Q : Tags R → ℕ → β → Prop}
    {Q' : Tags R → ℕ → γ → Prop} (h1 : Keeps T x h Q)
    (h2 : ∀ (T' : Tags R) (h' : Heap R) b, TagAgree h.exps.length T T' → h.exps.length ≤ h'.exps.length →
      Q T' h'.exps.length b → Keeps T' (f b) h' Q') : Keeps T (x >>= f) h Q' := by
  obtain ⟨T', ha, hl, hq⟩ := h1
  cases ho : (x h).1 with
  | error e =>
    have hrun : (x >>= f) h = (.error e, (x h).2) := PM.bind_error ho
    exact ⟨T', ha, by rw [hrun]; exact hl, fun b hb => by rw [hrun] at hb; cases hb⟩
  | ok b =>
    have hrun : (x >>= f) h = f b (x h).2 := PM.bind_ok ho
    obtain ⟨T'', ha', hl', hq'⟩ := h2 T' (x h).2 b ha hl (hq b ho)
    refine ⟨T'', ha.trans ha' hl, ?_, ?_⟩ <;> rw [hrun]
    · exact hl.trans hl'
    · exact hq'

theorem Keeps.readBind {rd : Heap R → Go α} {f : α → PM (Heap R) γ} {Q : Tags R → ℕ → γ → Prop}
    (h2 : ∀ a, rd h = .ok a → Keeps T (f a) h Q) : Keeps T (PM.read rd >>= f) h Q := by
  cases ho : rd h with
  | error e =>
    have hrun : (PM.read rd >>= f) h = (.error e, h) := PM.bind_error (x := PM.read rd) ho
    exact ⟨T, TagAgree.refl _ _, by rw [hrun], fun b hb => by rw [hrun] at hb; cases hb⟩
  | ok a =>
    have hrun : (PM.read rd >>= f) h = f a h := PM.bind_ok (x := PM.read rd) ho
    obtain ⟨T', ha, hl, hq⟩ := h2 a ho
    exact ⟨T', ha, by rw [hrun]; exact hl, by rw [hrun]; exact hq⟩

theorem Keeps.check {e : HScalar R} {f : Unit → PM (Heap R) γ} {Q : Tags R → ℕ → γ → Prop}
    (h2 : Keeps T (f ()) h Q) : Keeps T (hCheck e >>= f) h Q := Keeps.readBind fun _ _ => h2

/-- A loop whose results all have the property `Q`, which later calls keep. -/
theorem Keeps.traverse {f : α → PM (Heap R) β} {P : Tags R → ℕ → α → Prop} {Q : Tags R → ℕ → β → Prop}
    (hP : ∀ (T T' : Tags R) n n' a, P T n a → TagAgree n T T' → n ≤ n' → P T' n' a)
    (hQ : ∀ (T T' : Tags R) n n' b, Q T n b → TagAgree n T T' → n ≤ n' → Q T' n' b)
    (hf : ∀ (T : Tags R) (h : Heap R) a, P T h.exps.length a → Keeps T (f a) h Q) (l : List α) :
    ∀ {T : Tags R} {h : Heap R}, (∀ a ∈ l, P T h.exps.length a) →
      Keeps T (PM.traverse f l) h (fun T n bs => ∀ b ∈ bs, Q T n b) := by
  induction l with
  | nil => exact fun _ => Keeps.pure fun b hb => (by cases hb)
  | cons a l ih =>
    intro T h hl
    refine Keeps.bind (hf T h a (hl a (by simp))) fun T' h' b ha hn hb => ?_
    refine Keeps.bind (ih fun a' ha' => hP _ _ _ _ _ (hl a' (by simp [ha'])) ha hn) fun T'' h'' bs ha' hn' hbs => ?_
    refine Keeps.pure fun x hx => ?_
    rcases List.mem_cons.mp hx with rfl | hx
    · exact hQ _ _ _ _ _ hb ha' hn'
    · exact hbs x hx

theorem Keeps.foldl {f : β → α → PM (Heap R) β} {P : Tags R → ℕ → α → Prop} {Q : Tags R → ℕ → β → Prop}
    (hP : ∀ (T T' : Tags R) n n' a, P T n a → TagAgree n T T' → n ≤ n' → P T' n' a) (l : List α) :
    ∀ {T : Tags R} {h : Heap R} {b : β}, (∀ a ∈ l, P T h.exps.length a) → Q T h.exps.length b →
      (∀ (T' : Tags R) (h' : Heap R) a b, TagAgree h.exps.length T T' → h.exps.length ≤ h'.exps.length →
        P T' h'.exps.length a → Q T' h'.exps.length b → Keeps T' (f b a) h' Q) →
      Keeps T (PM.foldl f l b) h Q := by
  induction l with
  | nil => exact fun _ hb _ => Keeps.pure hb
  | cons a l ih =>
    intro T h b hl hb hf
    refine Keeps.bind (hf T h a b (TagAgree.refl _ _) le_rfl (hl a (by simp)) hb) fun T' h' b' ha hn hb' => ?_
    exact ih (fun a' ha' => hP _ _ _ _ _ (hl a' (by simp [ha'])) ha hn) hb'
      fun T'' h'' a'' b'' ha' hn' => hf T'' h'' a'' b'' (ha.trans ha' hn) (hn.trans hn')

/-! ## New monomials -/

theorem hNew_keeps (m : Mono R) : Keeps T (hNew m) h (fun T' n b => CM T' n b ∧ h.exps.length ≤ b.addr) := by
  have hrun : hNew m h = (.ok ⟨m.coeff, h.exps.length, m.vars⟩, { h with exps := h.exps ++ [m.exps] }) := rfl
  refine ⟨fun a => if a = h.exps.length then m.vars else T a, fun a ha => if_neg (Nat.ne_of_lt ha), ?_, ?_⟩
  · rw [hrun]; simp
  · rw [hrun]
    intro b hb
    cases hb
    exact ⟨⟨by simp, if_pos rfl⟩, le_rfl⟩

theorem hCopy_keeps (m : HMono R) : Keeps T (hCopy m) h (fun T' n b => CM T' n b ∧ h.exps.length ≤ b.addr) :=
  Keeps.readBind fun _ _ => hNew_keeps _

/-! ## Simplification -/

theorem matchesLoop_self (all vs : List (Var R)) (es : List Int) (h : ∀ v ∈ vs, findVar v all ≠ none) :
    matchesLoop all vs es es = true := by
  induction vs generalizing es with
  | nil => unfold matchesLoop; rfl
  | cons v vs ih =>
    cases es with
    | nil => rfl
    | cons e es =>
      unfold matchesLoop
      cases hf : findVar v all with
      | none => exact absurd hf (h v (by simp))
      | some i =>
        simp only [ne_eq, not_true_eq_false, if_false]
        exact ih es fun w hw => h w (by simp [hw])

theorem matches_same {m n : Mono R} (he : m.exps = n.exps) (hv : m.vars = n.vars) : m.matchesFormOf n ≠ .ok false := by
  unfold Mono.matchesFormOf
  cases m.check with
  | error e => intro h; cases h
  | ok u =>
    cases n.check with
    | error e => intro h; cases h
    | ok u' =>
      simp only [Go.ok_bind, hv, ne_eq, not_true_eq_false, if_false, he]
      rw [matchesLoop_self]
      · intro h; cases h
      · intro v hw hn
        rw [findVar_eq_none] at hn
        exact hn (List.mem_map_of_mem hw)

theorem hInsert_own {n : ℕ} {m : HMono R} (hm : CM T n m) (l : List (HMono R)) : ∀ {r : List (HMono R)},
    hInsert h.exps m l = .ok r → CL T n l →
    CL T n r ∧ (r.map (·.addr) = l.map (·.addr) ∨ r.map (·.addr) = l.map (·.addr) ++ [m.addr] ∧ m.addr ∉ l.map (·.addr)) := by
  induction l with
  | nil =>
    intro r hr _
    cases hr
    exact ⟨CL.cons hm CL.nil, Or.inr ⟨rfl, by simp⟩⟩
  | cons e es ih =>
    intro r hr hl
    unfold hInsert at hr
    have he : CM T n e := hl e (by simp)
    have hes : CL T n es := fun x hx => hl x (by simp [hx])
    cases hb : (e.load h.exps).matchesFormOf (m.load h.exps) with
    | error er => rw [hb] at hr; cases hr
    | ok b =>
      rw [hb] at hr
      simp only [Go.ok_bind] at hr
      cases b with
      | true =>
        cases hr
        exact ⟨CL.cons he hes, Or.inl rfl⟩
      | false =>
        simp only [Bool.false_eq_true, if_false] at hr
        obtain ⟨r', hr', hr⟩ := Go.bind_eq_ok.mp hr
        cases hr
        obtain ⟨h1, h2⟩ := ih hr' hes
        have hne : m.addr ≠ e.addr := by
          intro heq
          refine matches_same ?_ ?_ hb
          · show h.exps.getD e.addr [] = h.exps.getD m.addr []
            rw [heq]
          · show e.vars = m.vars
            rw [← he.2, ← hm.2, heq]
        refine ⟨CL.cons he h1, ?_⟩
        rcases h2 with h2 | ⟨h2, h3⟩
        · exact Or.inl (by simp [h2])
        · refine Or.inr ⟨by simp [h2], ?_⟩
          simp only [List.map_cons, List.mem_cons, not_or]
          exact ⟨hne, h3⟩

theorem hSimplifyFold_own {n : ℕ} (l : List (HMono R)) : ∀ {st st' : R × List (HMono R)},
    l.foldlM (hSimplifyStep h.exps) st = .ok st' → CL T n l → CL T n st.2 → (st.2.map (·.addr)).Nodup →
    CL T n st'.2 ∧ (st'.2.map (·.addr)).Nodup := by
  induction l with
  | nil =>
    intro st st' hst _ h1 h2
    cases hst
    exact ⟨h1, h2⟩
  | cons m l ih =>
    intro st st' hst hl h1 h2
    rw [List.foldlM_cons] at hst
    obtain ⟨st1, hs1, hst⟩ := Go.bind_eq_ok.mp hst
    have hm : CM T n m := hl m (by simp)
    have hl' : CL T n l := fun x hx => hl x (by simp [hx])
    unfold hSimplifyStep at hs1
    split at hs1
    · cases hs1
      exact ih hst hl' h1 h2
    · obtain ⟨r, hr, hs1⟩ := Go.bind_eq_ok.mp hs1
      cases hs1
      obtain ⟨h3, h4⟩ := hInsert_own hm st.2 hr h1
      refine ih hst hl' h3 ?_
      rcases h4 with h4 | ⟨h4, h5⟩
      · exact h4 ▸ h2
      · show (r.map (·.addr)).Nodup
        rw [h4, List.nodup_append]
        refine ⟨h2, List.nodup_singleton _, ?_⟩
        intro a ha b hb hab
        rw [List.mem_singleton] at hb
        exact h5 (hb ▸ hab ▸ ha)

/-- A polynomial with `Own`. -/
def OwnP (T : Tags R) (n : ℕ) (p : HPoly R) : Prop := Own T n (.poly p)

theorem hSimplifyOut_keeps {st : R × List (HMono R)} (h1 : CL T h.exps.length st.2) (h2 : (st.2.map (·.addr)).Nodup) :
    Keeps T (hSimplifyOut st) h OwnP := by
  have h3 : CL T h.exps.length (st.2.filter (fun m => !feq m.coeff zero)) := fun m hm => h1 m (List.mem_of_mem_filter hm)
  have h4 : ((st.2.filter (fun m => !feq m.coeff zero)).map (·.addr)).Nodup :=
    h2.sublist (List.Sublist.map _ List.filter_sublist)
  unfold hSimplifyOut
  simp only
  split
  · split
    · refine Keeps.bind (hNew_keeps _) fun T' h' b ha hn hb => Keeps.pure ?_
      exact ⟨CL.cons hb.1 CL.nil, List.nodup_singleton _⟩
    · exact Keeps.pure ⟨h3, h4⟩
  · refine Keeps.bind (hNew_keeps _) fun T' h' b ha hn hb => Keeps.pure ?_
    refine ⟨CL.cons hb.1 (h3.mono ha hn), ?_⟩
    show ((b :: _).map HMono.addr).Nodup
    rw [List.map_cons, List.nodup_cons]
    refine ⟨fun hm => ?_, h4⟩
    obtain ⟨m, hm, he⟩ := List.mem_map.mp hm
    have := (h3 m hm).1
    have := hb.2
    omega

theorem hPolySimplify_keeps {p : HPoly R} (hp : CL T h.exps.length p.monos) : Keeps T (hPolySimplify p) h OwnP := by
  refine Keeps.check (Keeps.readBind fun st hst => ?_)
  obtain ⟨h1, h2⟩ := hSimplifyFold_own p.monos hst hp CL.nil List.nodup_nil
  exact hSimplifyOut_keeps h1 h2

theorem hPolySimplified_keeps {p : HPoly R} (hp : CL T h.exps.length p.monos) : Keeps T (hPolySimplified p) h Own := by
  refine Keeps.bind (hPolySimplify_keeps hp) fun T' h' q ha hn hq => ?_
  refine Keeps.readBind fun s _ => ?_
  cases s with
  | k c => exact Keeps.pure Own.k
  | var v => exact Keeps.pure Own.var
  | mono m =>
    dsimp only
    split
    · rename_i m hm
      exact Keeps.pure (Own.mono1 (hq.1 m (by show m ∈ q.monos; rw [hm]; simp)))
    · exact Keeps.panic
  | poly r => exact Keeps.pure hq

theorem hMonoSimplified_keeps {m : HMono R} (hm : CM T h.exps.length m) : Keeps T (hMonoSimplified m) h Own := by
  refine Keeps.readBind fun s _ => ?_
  cases s with
  | k c => exact Keeps.pure Own.k
  | var v => exact Keeps.pure Own.var
  | mono x => exact Keeps.pure (Own.mono1 hm)
  | poly r => exact Keeps.pure (Own.mono1 hm)

theorem hSimplified_keeps {e : HScalar R} (he : CS T h.exps.length e) : Keeps T (hSimplified e) h Own := by
  cases e with
  | k c => exact Keeps.pure Own.k
  | var v => exact Keeps.pure Own.var
  | mono m => exact hMonoSimplified_keeps (he m (by simp [HScalar.monos]))
  | poly p => exact hPolySimplified_keeps he

/-! ## Plus -/

theorem CL.modifyCoeff {n : ℕ} {l : List (HMono R)} (hl : CL T n l) (i : ℕ) (f : R → R) :
    CL T n (l.modify i (fun m => { m with coeff := f m.coeff })) := by
  induction l generalizing i with
  | nil => simpa using CL.nil
  | cons a l ih =>
    have ha : CM T n a := hl a (by simp)
    have hl' : CL T n l := fun x hx => hl x (by simp [hx])
    cases i with
    | zero => rw [List.modify_zero_cons]; exact CL.cons ha hl'
    | succ i => rw [List.modify_succ_cons]; exact CL.cons ha (ih hl' i)

theorem hPolyPlusK_keeps {p : HPoly R} (hp : CL T h.exps.length p.monos) (c : R) : Keeps T (hPolyPlusK p c) h Own := by
  refine Keeps.check ?_
  cases p.monos.findIdx? (·.vars.isEmpty) with
  | none =>
    exact Keeps.bind (hNew_keeps _) fun T' h' b ha hn hb =>
      hPolySimplified_keeps ((hp.mono ha hn).append (CL.cons hb.1 CL.nil))
  | some i => exact hPolySimplified_keeps (hp.modifyCoeff i (fun x => add x c))

theorem hPolyPlusVar_keeps {p : HPoly R} (hp : CL T h.exps.length p.monos) (v : Var R) :
    Keeps T (hPolyPlusVar p v) h Own := by
  refine Keeps.check (Keeps.check (Keeps.readBind fun o _ => ?_))
  cases o with
  | none =>
    exact Keeps.bind (hNew_keeps _) fun T' h' b ha hn hb =>
      hPolySimplified_keeps ((hp.mono ha hn).append (CL.cons hb.1 CL.nil))
  | some i => exact hPolySimplified_keeps (hp.modifyCoeff i (fun x => add x one))

theorem hPolyPlusPoly_keeps {p q : HPoly R} (hp : CL T h.exps.length p.monos) (hq : CL T h.exps.length q.monos) :
    Keeps T (hPolyPlusPoly p q) h Own :=
  Keeps.check (Keeps.check (Keeps.bind (hPolySimplified_keeps (hp.append hq)) fun _ _ _ _ _ hb =>
    hSimplified_keeps hb.1))

theorem hPolyPlusMono_keeps {p : HPoly R} {m : HMono R} (hp : CL T h.exps.length p.monos) :
    Keeps T (hPolyPlusMono p m) h Own :=
  Keeps.check (Keeps.check (Keeps.bind (hCopy_keeps m) fun _ _ _ ha hn hb =>
    Keeps.bind (hPolyPlusPoly_keeps (hp.mono ha hn) (CL.cons hb.1 CL.nil)) fun _ _ _ _ _ hb =>
      hSimplified_keeps hb.1))

theorem CM.withCoeff {n : ℕ} {m : HMono R} (hm : CM T n m) (c : R) : CM T n { m with coeff := c } := hm

theorem hMonoPlus_keeps {m : HMono R} {e : HScalar R} (he : CS T h.exps.length e) : Keeps T (hMonoPlus m e) h Own := by
  refine Keeps.check (Keeps.check ?_)
  cases e with
  | k c =>
    dsimp only
    split
    · exact hSimplified_keeps CL.nil
    · exact Keeps.bind (hCopy_keeps m) fun T' h' b ha hn hb => Keeps.bind (hNew_keeps _) fun T'' h'' b' ha' hn' hb' =>
        hSimplified_keeps (CL.cons (hb.1.mono ha' hn') (CL.cons hb'.1 CL.nil))
  | var v =>
    refine Keeps.readBind fun b _ => Keeps.bind (hCopy_keeps m) fun T' h' m' ha hn hb => ?_
    cases b with
    | true => exact hSimplified_keeps (Own.mono1 (hb.1.withCoeff _)).1
    | false => exact Keeps.bind (hNew_keeps _) fun T'' h'' b' ha' hn' hb' =>
        hSimplified_keeps (CL.cons (hb.1.mono ha' hn') (CL.cons hb'.1 CL.nil))
  | mono r =>
    have hr : CM T h.exps.length r := he r (by simp [HScalar.monos])
    refine Keeps.readBind fun b _ => Keeps.bind (hCopy_keeps m) fun T' h' m' ha hn hb => ?_
    cases b with
    | true => exact hSimplified_keeps (Own.mono1 (hb.1.withCoeff _)).1
    | false => exact hSimplified_keeps (CS.poly (CL.cons hb.1 (CL.cons (hr.mono ha hn) CL.nil)))
  | poly p =>
    exact Keeps.bind (hCopy_keeps m) fun T' h' m' ha hn hb =>
      Keeps.bind (hPolyPlusMono_keeps (CL.mono he ha hn)) fun _ _ _ _ _ hb => hSimplified_keeps hb.1

theorem hPolyPlus_keeps {p : HPoly R} {e : HScalar R} (hp : CL T h.exps.length p.monos) (he : CS T h.exps.length e) :
    Keeps T (hPolyPlus p e) h Own := by
  cases e with
  | k c => exact hPolyPlusK_keeps hp c
  | var v => exact hPolyPlusVar_keeps hp v
  | mono m => exact hPolyPlusMono_keeps hp
  | poly q => exact hPolyPlusPoly_keeps hp he

theorem hVarPlus_keeps {v : Var R} {e : HScalar R} (he : CS T h.exps.length e) : Keeps T (hVarPlus v e) h Own := by
  refine Keeps.check ?_
  cases e with
  | k c =>
    exact Keeps.bind (hNew_keeps _) fun T' h' b ha hn hb => Keeps.bind (hNew_keeps _) fun T'' h'' b' ha' hn' hb' =>
      hSimplified_keeps (CL.cons (hb.1.mono ha' hn') (CL.cons hb'.1 CL.nil))
  | var w =>
    dsimp only
    split
    · exact Keeps.bind (hNew_keeps _) fun T' h' b ha hn hb => hSimplified_keeps (CL.cons hb.1 CL.nil)
    · exact Keeps.bind (hNew_keeps _) fun T' h' b ha hn hb => Keeps.bind (hNew_keeps _) fun T'' h'' b' ha' hn' hb' =>
        hSimplified_keeps (CL.cons (hb.1.mono ha' hn') (CL.cons hb'.1 CL.nil))
  | mono m => exact Keeps.bind (hMonoPlus_keeps CL.nil) fun _ _ _ _ _ hb => hSimplified_keeps hb.1
  | poly p => exact Keeps.bind (hPolyPlusVar_keeps he v) fun _ _ _ _ _ hb => hSimplified_keeps hb.1

theorem hKPlus_keeps {c : R} {e : HScalar R} (he : CS T h.exps.length e) : Keeps T (hKPlus c e) h Own := by
  refine Keeps.check ?_
  cases e with
  | k d => exact Keeps.pure Own.k
  | var v => exact hVarPlus_keeps CL.nil
  | mono m => exact hMonoPlus_keeps CL.nil
  | poly p => exact hPolyPlusK_keeps he c

theorem hPlus_keeps {a e : HScalar R} (ha : CS T h.exps.length a) (he : CS T h.exps.length e) :
    Keeps T (hPlus a e) h Own := by
  cases a with
  | k c => exact hKPlus_keeps he
  | var v => exact hVarPlus_keeps he
  | mono m => exact hMonoPlus_keeps he
  | poly p => exact hPolyPlus_keeps ha he

/-! ## Multiply -/

theorem hMonoMulK_keeps (m : HMono R) (c : R) : Keeps T (hMonoMulK m c) h CM :=
  Keeps.bind (hCopy_keeps m) fun _ _ _ _ _ hb => Keeps.pure (hb.1.withCoeff _)

theorem hMonoMulVar_keeps (m : HMono R) (v : Var R) : Keeps T (hMonoMulVar m v) h CM := by
  refine Keeps.bind (hCopy_keeps m) fun T' h' m' ha hn hb => ?_
  cases findVar v m.vars with
  | none => exact Keeps.readBind fun e _ => (hNew_keeps _).weaken fun _ _ _ _ _ hq => hq.1
  | some i =>
    refine ⟨T', TagAgree.refl _ _, by simp, fun b hb' => ?_⟩
    cases hb'
    simpa using hb.1

theorem hMonoMulMono_keeps (m r : HMono R) : Keeps T (hMonoMulMono m r) h CM :=
  Keeps.readBind fun _ _ => (hNew_keeps _).weaken fun _ _ _ _ _ hq => hq.1

theorem Keeps.monos {f : HMono R → PM (Heap R) (HMono R)}
    (hf : ∀ (T : Tags R) (h : Heap R) m, Keeps T (f m) h CM) (l : List (HMono R)) :
    Keeps T (PM.traverse f l) h CL :=
  Keeps.traverse (P := fun _ _ _ => True) (Q := CM) (fun _ _ _ _ _ _ _ _ => trivial)
    (fun _ _ _ _ _ hb ha hn => CM.mono hb ha hn) (fun T h m _ => hf T h m) l fun _ _ => trivial

theorem hPolyMulK_keeps (p : HPoly R) (c : R) : Keeps T (hPolyMulK p c) h Own :=
  Keeps.check (Keeps.bind (Keeps.monos (fun _ _ m => hMonoMulK_keeps m c) _) fun _ _ _ _ _ hb =>
    hPolySimplified_keeps hb)

theorem hPolyMulVar_keeps (p : HPoly R) (v : Var R) : Keeps T (hPolyMulVar p v) h Own :=
  Keeps.check (Keeps.check (Keeps.bind (Keeps.monos (fun _ _ m => hMonoMulVar_keeps m v) _) fun _ _ _ _ _ hb =>
    hPolySimplified_keeps hb))

theorem hPolyMulMono_keeps (p : HPoly R) (r : HMono R) : Keeps T (hPolyMulMono p r) h Own :=
  Keeps.check (Keeps.check (Keeps.bind (Keeps.monos (fun _ _ m => hMonoMulMono_keeps m r) _) fun _ _ _ _ _ hb =>
    hPolySimplified_keeps hb))

theorem hPolyMulPoly_keeps (p q : HPoly R) : Keeps T (hPolyMulPoly p q) h Own := by
  refine Keeps.check (Keeps.check (Keeps.bind (Q := Own) ?_ fun _ _ _ _ _ hb => hSimplified_keeps hb.1))
  refine Keeps.foldl (P := fun _ _ _ => True) (fun _ _ _ _ _ _ _ _ => trivial) q.monos (fun _ _ => trivial) Own.k ?_
  intro T' h' r acc _ _ _ hacc
  exact Keeps.bind (hPolyMulMono_keeps p r) fun _ _ _ ha hn hb => hPlus_keeps (hacc.1.mono ha hn) hb.1

theorem hPolyMul_keeps (p : HPoly R) (e : HScalar R) : Keeps T (hPolyMul p e) h Own := by
  cases e with
  | k c => exact hPolyMulK_keeps p c
  | var v => exact hPolyMulVar_keeps p v
  | mono m => exact hPolyMulMono_keeps p m
  | poly q => exact hPolyMulPoly_keeps p q

theorem Keeps.retMono {x : PM (Heap R) (HMono R)} (hx : Keeps T x h CM) :
    Keeps T (x >>= fun m => (Pure.pure (HScalar.mono m) : PM (Heap R) (HScalar R))) h Own :=
  Keeps.bind hx fun _ _ _ _ _ hb => Keeps.pure (Own.mono1 hb)

theorem hMonoMul_keeps (m : HMono R) (e : HScalar R) : Keeps T (hMonoMul m e) h Own := by
  refine Keeps.check (Keeps.check ?_)
  cases e with
  | k c => exact Keeps.retMono (hMonoMulK_keeps m c)
  | var v => exact Keeps.retMono (hMonoMulVar_keeps m v)
  | mono r => exact Keeps.retMono (hMonoMulMono_keeps m r)
  | poly p => exact hPolyMulMono_keeps p m

theorem hVarMul_keeps (v : Var R) (e : HScalar R) : Keeps T (hVarMul v e) h Own := by
  refine Keeps.check (Keeps.check ?_)
  cases e with
  | k c => exact Keeps.bind (hNew_keeps _) fun _ _ _ _ _ hb => hSimplified_keeps (CL.cons hb.1 CL.nil)
  | var w =>
    dsimp only
    split
    · exact Keeps.bind (hNew_keeps _) fun _ _ _ _ _ hb => hSimplified_keeps (CL.cons hb.1 CL.nil)
    · exact Keeps.bind (hNew_keeps _) fun _ _ _ _ _ hb => hSimplified_keeps (CL.cons hb.1 CL.nil)
  | mono m => exact Keeps.bind (hMonoMul_keeps m _) fun _ _ _ _ _ hb => hSimplified_keeps hb.1
  | poly p => exact Keeps.bind (hPolyMulVar_keeps p v) fun _ _ _ _ _ hb => hSimplified_keeps hb.1

theorem hKMul_keeps (c : R) (e : HScalar R) : Keeps T (hKMul c e) h Own := by
  refine Keeps.check ?_
  cases e with
  | k d => exact Keeps.pure Own.k
  | var v => exact hVarMul_keeps v _
  | mono m => exact hMonoMul_keeps m _
  | poly p => exact hPolyMulK_keeps p c

theorem hMul_keeps (a e : HScalar R) : Keeps T (hMul a e) h Own := by
  cases a with
  | k c => exact hKMul_keeps c e
  | var v => exact hVarMul_keeps v e
  | mono m => exact hMonoMul_keeps m e
  | poly p => exact hPolyMul_keeps p e

/-! ## Minus, Power -/

theorem hMulF64_keeps (e : HScalar R) (c : R) : Keeps T (hMulF64 e c) h Own := by
  cases e with
  | k d => exact hKMul_keeps d _
  | var v => exact Keeps.bind (hMul_keeps _ _) fun _ _ _ _ _ hb => hSimplified_keeps hb.1
  | mono m => exact hMonoMul_keeps m _
  | poly p => exact Keeps.bind (hMul_keeps _ _) fun _ _ _ _ _ hb => hSimplified_keeps hb.1

theorem hMinus_keeps {a b : HScalar R} (ha : CS T h.exps.length a) : Keeps T (hMinus a b) h Own :=
  Keeps.check (Keeps.check (Keeps.bind (hMulF64_keeps b _) fun _ _ _ hag hn hb => hPlus_keeps (ha.mono hag hn) hb.1))

theorem hPowLoop_keeps (base : HScalar R) (n : ℕ) : ∀ {T : Tags R} {h : Heap R} {acc : HScalar R},
    Own T h.exps.length acc → Keeps T (hPowLoop base n acc) h Own := by
  induction n with
  | zero => exact fun hacc => Keeps.pure hacc
  | succ n ih => exact fun _ => Keeps.bind (hMul_keeps _ _) fun _ _ _ _ _ hb => ih hb

theorem hPower_keeps (base : HScalar R) (n : Int) : Keeps T (hPower base n) h Own := by
  refine Keeps.check ?_
  split
  · exact Keeps.panic
  · exact hPowLoop_keeps base _ Own.k

/-! ## Substitution -/

theorem hVarSubstitute_keeps {v vIn : Var R} {s : HScalar R} (hs : Own T h.exps.length s) :
    Keeps T (hVarSubstitute v vIn s) h Own := by
  refine Keeps.check (Keeps.check (Keeps.check ?_))
  split
  · exact Keeps.pure hs
  · exact Keeps.pure Own.var

theorem hMonoSubstitute_keeps {m : HMono R} {vIn : Var R} {s : HScalar R} (hm : CM T h.exps.length m)
    (hs : Own T h.exps.length s) : Keeps T (hMonoSubstitute m vIn s) h Own := by
  refine Keeps.check (Keeps.check (Keeps.check ?_))
  cases findVar vIn m.vars with
  | none => exact Keeps.pure (Own.mono1 hm)
  | some i =>
    refine Keeps.readBind fun e _ => ?_
    refine Keeps.foldl (P := fun _ _ _ => True) (fun _ _ _ _ _ _ _ _ => trivial) _ (fun _ _ => trivial) Own.k ?_
    intro T' h' ve acc ha hn _ _
    exact Keeps.bind (hVarSubstitute_keeps (hs.mono ha hn)) fun _ _ _ _ _ _ =>
      Keeps.bind (hPower_keeps _ _) fun _ _ _ _ _ _ => hMul_keeps _ _

theorem hPolySubstitute_keeps {p : HPoly R} {vIn : Var R} {s : HScalar R} (hp : CL T h.exps.length p.monos)
    (hs : Own T h.exps.length s) : Keeps T (hPolySubstitute p vIn s) h Own := by
  refine Keeps.check (Keeps.check (Keeps.check (Keeps.bind (Q := Own) ?_ fun _ _ _ _ _ hb => hSimplified_keeps hb.1)))
  refine Keeps.foldl (P := CM) (fun _ _ _ _ _ hm ha hn => CM.mono hm ha hn) p.monos hp Own.k ?_
  intro T' h' m acc ha hn hm hacc
  exact Keeps.bind (hMonoSubstitute_keeps hm (hs.mono ha hn)) fun _ _ _ ha' hn' hb =>
    hPlus_keeps (hacc.1.mono ha' hn') hb.1

theorem hSubstitute_keeps {e : HScalar R} {vIn : Var R} {s : HScalar R} (he : Own T h.exps.length e)
    (hs : Own T h.exps.length s) : Keeps T (hSubstitute e vIn s) h Own := by
  cases e with
  | k c => exact Keeps.pure Own.k
  | var v => exact hVarSubstitute_keeps hs
  | mono m => exact hMonoSubstitute_keeps (he.1 m (by simp [HScalar.monos])) hs
  | poly p => exact hPolySubstitute_keeps he.1 hs

/-- All expressions of a substitution map. -/
def OwnMap (T : Tags R) (n : ℕ) (sm : HSubMap R) : Prop := ∀ kv ∈ sm, Own T n kv.2

theorem OwnMap.mono {T T' : Tags R} {n n' : ℕ} {sm : HSubMap R} (h : OwnMap T n sm) (ha : TagAgree n T T') (hn : n ≤ n') :
    OwnMap T' n' sm := fun kv hkv => (h kv hkv).mono ha hn

theorem hVarSubstMap_keeps {v : Var R} {sm : HSubMap R} (hs : OwnMap T h.exps.length sm) :
    Keeps T (hVarSubstMap v sm) h Own := by
  refine Keeps.check (Keeps.readBind fun _ _ => ?_)
  cases hf : sm.find? (fun kv => v.keyEq kv.1) with
  | some kv => exact Keeps.pure (hs kv (List.mem_of_find?_eq_some hf))
  | none => exact Keeps.pure Own.var

theorem hMonoSubstMap_keeps {m : HMono R} {sm : HSubMap R} (hs : OwnMap T h.exps.length sm) :
    Keeps T (hMonoSubstMap m sm) h Own := by
  refine Keeps.check (Keeps.readBind fun _ _ => Keeps.readBind fun e _ => ?_)
  refine Keeps.foldl (P := fun _ _ _ => True) (fun _ _ _ _ _ _ _ _ => trivial) _ (fun _ _ => trivial) Own.k ?_
  intro T' h' ve acc ha hn _ _
  exact Keeps.bind (hVarSubstMap_keeps (hs.mono ha hn)) fun _ _ _ _ _ _ =>
    Keeps.bind (hPower_keeps _ _) fun _ _ _ _ _ _ => hMul_keeps _ _

theorem hPolySubstMap_keeps {p : HPoly R} {sm : HSubMap R} (hs : OwnMap T h.exps.length sm) :
    Keeps T (hPolySubstMap p sm) h Own := by
  refine Keeps.check (Keeps.readBind fun _ _ => ?_)
  refine Keeps.foldl (P := fun _ _ _ => True) (fun _ _ _ _ _ _ _ _ => trivial) p.monos (fun _ _ => trivial) Own.k ?_
  intro T' h' m acc ha hn _ hacc
  exact Keeps.bind (hMonoSubstMap_keeps (hs.mono ha hn)) fun _ _ _ ha' hn' hb =>
    hPlus_keeps (hacc.1.mono ha' hn') hb.1

theorem hSubstMap_keeps {e : HScalar R} {sm : HSubMap R} (hs : OwnMap T h.exps.length sm) :
    Keeps T (hSubstMap e sm) h Own := by
  cases e with
  | k c => exact Keeps.pure Own.k
  | var v => exact hVarSubstMap_keeps hs
  | mono m => exact hMonoSubstMap_keeps hs
  | poly p => exact hPolySubstMap_keeps hs

/-! ## DerivativeWrt -/

theorem pMonoDerivative_keeps (v : Var R) {m : HMono R} (hm : CM T h.exps.length m) :
    Keeps T (pMonoDerivative v m) h (fun T' n e => Own T' n e ∧ ∀ d ∈ e.monos, d.addr = m.addr ∨ h.exps.length ≤ d.addr) := by
  unfold Keeps pMonoDerivative
  cases hr : m.derivative v h.exps with
  | error e => exact ⟨T, TagAgree.refl _ _, le_rfl, fun b hb => by cases hb⟩
  | ok r =>
    simp only
    unfold HMono.derivative at hr
    obtain ⟨-, -, hr⟩ := Go.bind_eq_ok.mp hr
    obtain ⟨-, -, hr⟩ := Go.bind_eq_ok.mp hr
    have hk : ∀ c : R, Own T h.exps.length (.k c) ∧ ∀ d ∈ (HScalar.k c).monos, d.addr = m.addr ∨ h.exps.length ≤ d.addr :=
      fun c => ⟨Own.k, fun d hd => (by cases hd)⟩
    cases hf : findVar v m.vars with
    | none =>
      rw [hf] at hr
      cases hr
      exact ⟨T, TagAgree.refl _ _, le_rfl, fun b hb => by cases hb; exact hk _⟩
    | some i =>
      rw [hf] at hr
      simp only at hr
      split at hr
      · cases hr
      · split at hr
        · cases hr
          exact ⟨T, TagAgree.refl _ _, le_rfl, fun b hb => by cases hb; exact hk _⟩
        · split at hr
          · cases hr
            refine ⟨fun a => if a = h.exps.length then m.vars.eraseIdx i else T a,
              fun a ha => if_neg (Nat.ne_of_lt ha), by simp, fun b hb => ?_⟩
            cases hb
            refine ⟨Own.mono1 ⟨by simp, if_pos rfl⟩, fun d hd => ?_⟩
            rw [HScalar.monos, List.mem_singleton] at hd
            subst hd
            exact Or.inr le_rfl
          · cases hr
            refine ⟨T, TagAgree.refl _ _, by simp, fun b hb => ?_⟩
            cases hb
            refine ⟨Own.mono1 ⟨by simpa using hm.1, hm.2⟩, fun d hd => ?_⟩
            rw [HScalar.monos, List.mem_singleton] at hd
            subst hd
            exact Or.inl rfl

theorem alloc_keeps (l : List Int) (vs : List (Var R)) :
    Keeps T (alloc l) h (fun T' n a => (a < n ∧ T' a = vs) ∧ h.exps.length ≤ a) := by
  refine ⟨fun a => if a = h.exps.length then vs else T a, fun a ha => if_neg (Nat.ne_of_lt ha), by simp [alloc], ?_⟩
  intro b hb
  cases hb
  exact ⟨⟨by simp [alloc], if_pos rfl⟩, le_rfl⟩

theorem pDerivStep_keeps (v : Var R) {m : HMono R} (hm : CM T h.exps.length m) :
    Keeps T (pDerivStep v m) h (fun T' n l => CL T' n l ∧ (l.map (·.addr)).Nodup ∧
      ∀ d ∈ l, d.addr = m.addr ∨ h.exps.length ≤ d.addr) := by
  have hnil : ∀ (T' : Tags R) n, CL T' n ([] : List (HMono R)) ∧ (([] : List (HMono R)).map (·.addr)).Nodup ∧
      ∀ d ∈ ([] : List (HMono R)), d.addr = m.addr ∨ h.exps.length ≤ d.addr :=
    fun _ _ => ⟨CL.nil, List.nodup_nil, fun d hd => (by cases hd)⟩
  unfold pDerivStep
  split
  · exact Keeps.pure (hnil _ _)
  · refine Keeps.bind (pMonoDerivative_keeps v hm) fun T' h' e ha hn he => ?_
    cases e with
    | var w => exact Keeps.panic
    | poly p => exact Keeps.panic
    | mono d => exact Keeps.pure ⟨he.1.1, List.nodup_singleton _, he.2⟩
    | k c =>
      dsimp only
      split
      · exact Keeps.pure (hnil _ _)
      · refine Keeps.bind (alloc_keeps [] []) fun T'' h'' a ha' hn' hb => Keeps.pure ?_
        refine ⟨CL.cons hb.1 CL.nil, List.nodup_singleton _, fun d hd => ?_⟩
        rw [List.mem_singleton] at hd
        subst hd
        exact Or.inr (hn.trans hb.2)

theorem pDerivSteps_keeps (v : Var R) (l : List (HMono R)) : ∀ {T : Tags R} {h : Heap R}, CL T h.exps.length l →
    (l.map (·.addr)).Nodup →
    Keeps T (PM.traverse (pDerivStep v) l) h (fun T' n ds => CL T' n ds.flatten ∧ (ds.flatten.map (·.addr)).Nodup ∧
      ∀ d ∈ ds.flatten, d.addr ∈ l.map (·.addr) ∨ h.exps.length ≤ d.addr) := by
  induction l with
  | nil => exact fun _ _ => Keeps.pure ⟨CL.nil, List.nodup_nil, fun d hd => (by cases hd)⟩
  | cons m l ih =>
    intro T h hl hnd
    rw [List.map_cons, List.nodup_cons] at hnd
    refine Keeps.bind (pDerivStep_keeps v (hl m (by simp))) fun T' h' d ha hn hd => ?_
    have hl' : CL T h.exps.length l := fun x hx => hl x (by simp [hx])
    refine Keeps.bind (ih (hl'.mono ha hn) hnd.2) fun T'' h'' ds ha' hn' hds => Keeps.pure ?_
    rw [List.flatten_cons]
    refine ⟨(hd.1.mono ha' hn').append hds.1, ?_, ?_⟩
    · rw [List.map_append, List.nodup_append]
      refine ⟨hd.2.1, hds.2.1, ?_⟩
      intro a h1 b h2 hab
      subst hab
      obtain ⟨x, hx, rfl⟩ := List.mem_map.mp h1
      obtain ⟨y, hy, hxy⟩ := List.mem_map.mp h2
      have hx1 := (hd.1 x hx).1
      rcases hd.2.2 x hx with h3 | h3 <;> rcases hds.2.2 y hy with h4 | h4
      · exact hnd.1 (by rw [← h3, ← hxy]; exact h4)
      · omega
      · obtain ⟨z, hz, hzy⟩ := List.mem_map.mp h4
        have := (hl' z hz).1
        omega
      · omega
    · intro x hx
      rcases List.mem_append.mp hx with hx | hx
      · rcases hd.2.2 x hx with h3 | h3
        · exact Or.inl (by simp [h3])
        · exact Or.inr h3
      · rcases hds.2.2 x hx with h3 | h3
        · exact Or.inl (List.mem_cons_of_mem _ h3)
        · exact Or.inr (hn.trans h3)

theorem pScalarDerivative_keeps (v : Var R) {e : HScalar R} (he : Own T h.exps.length e) :
    Keeps T (pScalarDerivative v e) h Own := by
  cases e with
  | k c => exact Keeps.pure Own.k
  | var w =>
    refine Keeps.readBind fun _ _ => Keeps.readBind fun _ _ => ?_
    split
    · exact Keeps.pure Own.k
    · exact Keeps.pure Own.k
  | mono m =>
    exact (pMonoDerivative_keeps v (he.1 m (by simp [HScalar.monos]))).weaken fun T' n e ha hn hq => hq.1
  | poly p =>
    refine Keeps.readBind fun _ _ => Keeps.readBind fun _ _ => ?_
    refine Keeps.bind (pDerivSteps_keeps v p.monos he.1 he.2) fun T' h' ds ha hn hds => ?_
    split
    · exact Keeps.pure Own.k
    · exact Keeps.pure ⟨hds.1, hds.2.1⟩

end Verif
