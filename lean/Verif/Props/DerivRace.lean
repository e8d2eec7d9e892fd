import Verif.Model.DerivRace
import Verif.Model.Heap
import Verif.Lemmas.Deriv
import Verif.Witness

/-!
# C82: goroutines that differentiate expressions they share

`Monomial.DerivativeWrt` counts down the exponent in the slice of its receiver.  Here: exactly when calls that run at the same time
return the right derivatives under every schedule.
-/

set_option linter.unusedSectionVars false

namespace Verif

variable {R ι : Type} [GoNum R] [DecidableEq ι]

/-- The variable occurs in the receiver. -/
def DCall.Occurs (c : DCall R) : Prop := c.v.id ∈ c.vars.map (·.id)

/-- The variable occurs in the receiver with an exponent other than one. -/
def DCall.Counts (c : DCall R) (mem : DMem) : Prop :=
  ∃ i e, findVar c.v c.vars = some i ∧ (mem c.addr)[i]? = some e ∧ e ≠ 1

/-- No two calls in `S` get into each other's way: a slice in which one of them counts down is not differentiated by another. -/
def Apart (calls : ι → DCall R) (mem : DMem) (S : Set ι) : Prop :=
  ∀ g ∈ S, ∀ h ∈ S, g ≠ h → (calls g).addr = (calls h).addr → (calls g).Counts mem → ¬ (calls h).Occurs

theorem DCall.Counts.occurs {c : DCall R} {mem : DMem} (h : c.Counts mem) : c.Occurs := by
  obtain ⟨i, -, hi, -, -⟩ := h
  by_contra hc
  rw [findVar_eq_none.mpr hc] at hi
  cases hi

/-- The receiver has as many exponents as factors. -/
def DCall.Sized (c : DCall R) (mem : DMem) : Prop := (mem c.addr).length = c.vars.length

/-- What is known of a call in progress, in terms of the memory at the beginning. -/
def DCall.At (c : DCall R) (mem0 : DMem) : DPC R → Prop
  | .start => True
  | .first i => c.Sized mem0 ∧ c.v.check = .ok () ∧ findVar c.v c.vars = some i
  | .second i => c.Sized mem0 ∧ c.v.check = .ok () ∧ findVar c.v c.vars = some i ∧
      ¬ ((mem0 c.addr)[i]? = some 1 ∧ c.vars.length = 1)
  | .copying i k es => c.Sized mem0 ∧ c.v.check = .ok () ∧ findVar c.v c.vars = some i ∧
      c.vars.length ≠ 1 ∧ (mem0 c.addr)[i]? = some 1 ∧ k ≤ c.vars.length ∧
      es = ((mem0 c.addr).take k).eraseIdx i
  | .coef i => c.Sized mem0 ∧ c.v.check = .ok () ∧ findVar c.v c.vars = some i ∧
      ∃ e, (mem0 c.addr)[i]? = some e ∧ e ≠ 1
  | .dec i c' => c.Sized mem0 ∧ c.v.check = .ok () ∧ findVar c.v c.vars = some i ∧
      ∃ e, (mem0 c.addr)[i]? = some e ∧ e ≠ 1 ∧ c' = GoNum.mul c.coeff (GoNum.ofInt e)
  | .write i c' e => c.Sized mem0 ∧ c.v.check = .ok () ∧ findVar c.v c.vars = some i ∧
      (mem0 c.addr)[i]? = some e ∧ e ≠ 1 ∧ c' = GoNum.mul c.coeff (GoNum.ofInt e)
  | .done (.panicked e) => (c.receiver mem0).derivative c.v = .error e
  | .done (.own r) => (c.receiver mem0).derivative c.v = .ok r ∧ ¬ c.Counts mem0
  | .done (.shared c') => c.Sized mem0 ∧ c.v.check = .ok () ∧ ∃ i e, findVar c.v c.vars = some i ∧
      (mem0 c.addr)[i]? = some e ∧ e ≠ 1 ∧ c' = GoNum.mul c.coeff (GoNum.ofInt e)

theorem DCall.Sized.check {c : DCall R} {mem : DMem} (h : c.Sized mem) : (c.receiver mem).check = .ok () := by
  unfold Mono.check
  rw [if_neg (by simpa [DCall.receiver, DCall.Sized] using h)]
  rfl

/-- What the three cases return. -/
theorem DCall.derivative_eq {c : DCall R} {mem : DMem} (h : c.Sized mem) (hv : c.v.check = .ok ()) {i : ℕ} {e : Int}
    (hi : findVar c.v c.vars = some i) (he : (mem c.addr)[i]? = some e) :
    (c.receiver mem).derivative c.v =
      if e = 1 ∧ c.vars.length = 1 then .ok (.k c.coeff)
      else if e = 1 then .ok (.mono ⟨c.coeff, (mem c.addr).eraseIdx i, c.vars.eraseIdx i⟩)
      else .ok (.mono ⟨GoNum.mul c.coeff (GoNum.ofInt e), (mem c.addr).modify i (· - 1), c.vars⟩) := by
  unfold Mono.derivative
  rw [h.check, hv, Go.ok_bind, Go.ok_bind]
  simp only [DCall.receiver, hi, he]
  rfl

theorem DCall.counts_iff {c : DCall R} {mem : DMem} {i : ℕ} {e : Int} (hi : findVar c.v c.vars = some i)
    (he : (mem c.addr)[i]? = some e) : c.Counts mem ↔ e ≠ 1 := by
  constructor
  · rintro ⟨i', e', h1, h2, h3⟩
    rw [hi, Option.some.injEq] at h1
    subst h1
    rw [he, Option.some.injEq] at h2
    exact h2 ▸ h3
  · exact fun h => ⟨i, e, hi, he, h⟩

theorem set_eq_modify {l : List Int} {i : ℕ} {e : Int} (h : l[i]? = some e) : l.set i (e - 1) = l.modify i (· - 1) := by
  apply List.ext_getElem?
  intro j
  rw [List.getElem?_set, List.getElem?_modify]
  by_cases hij : i = j
  · subst hij
    have hl : i < l.length := by
      by_contra hc
      rw [List.getElem?_eq_none (by omega)] at h
      cases h
    rw [List.getElem?_eq_getElem hl, Option.some.injEq] at h
    simp [hl, h]
  · simp [hij]

/-- Everything that holds during a run of calls that are apart. -/
structure DInv (calls : ι → DCall R) (mem0 : DMem) (S : Set ι) (s : DState R ι) : Prop where
  /-- every call is where it should be -/
  at_ : ∀ g ∈ S, (calls g).At mem0 (s.pc g)
  /-- a slice nobody has counted down in is as at the beginning -/
  same : ∀ a, (∀ g ∈ S, (calls g).addr = a → ∀ c, s.pc g ≠ .done (.shared c)) → s.mem a = mem0 a
  /-- a call that has counted down has done so once -/
  once : ∀ g ∈ S, ∀ c, s.pc g = .done (.shared c) →
    ∃ i, findVar (calls g).v (calls g).vars = some i ∧ s.mem (calls g).addr = (mem0 (calls g).addr).modify i (· - 1)
  /-- lengths never change -/
  len : ∀ a, (s.mem a).length = (mem0 a).length

theorem DInv.begin (calls : ι → DCall R) (mem0 : DMem) (S : Set ι) {s : DState R ι} (hm : s.mem = mem0)
    (hs : ∀ g ∈ S, s.pc g = .start) : DInv calls mem0 S s where
  at_ g hg := by rw [hs g hg]; trivial
  same a _ := by rw [hm]
  once g hg c h := by rw [hs g hg] at h; cases h
  len a := by rw [hm]

/-- A call in progress that looks at exponents sees those of the beginning. -/
theorem DInv.sees {calls : ι → DCall R} {mem0 : DMem} {S : Set ι} {s : DState R ι} (h : DInv calls mem0 S s)
    (hA : Apart calls mem0 S) {g : ι} (hg : g ∈ S) (ho : (calls g).Occurs) (hd : ∀ c, s.pc g ≠ .done (.shared c)) :
    s.mem (calls g).addr = mem0 (calls g).addr := by
  apply h.same
  intro k hk ha c hc
  have hkg : k ≠ g := by
    rintro rfl
    exact hd c hc
  have hat := h.at_ k hk
  rw [hc] at hat
  obtain ⟨-, -, i, e, hi, he, h1, -⟩ := hat
  exact hA k hk g hg hkg ha ⟨i, e, hi, he, h1⟩ ho

theorem occurs_of_find {c : DCall R} {i : ℕ} (h : findVar c.v c.vars = some i) : c.Occurs := by
  by_contra hc
  rw [findVar_eq_none.mpr hc] at h
  cases h

theorem DInv.step {calls : ι → DCall R} {mem0 : DMem} {S : Set ι} {s : DState R ι} (h : DInv calls mem0 S s)
    (hA : Apart calls mem0 S) {g : ι} (hg : g ∈ S) : DInv calls mem0 S (s.step calls g) := by
  have hat := h.at_ g hg
  -- a step that writes nothing
  have quiet : ∀ p, (calls g).next s.mem (s.pc g) = p → (calls g).writes s.mem (s.pc g) = s.mem →
      (∀ c, p ≠ .done (.shared c)) → (∀ c, s.pc g ≠ .done (.shared c)) → (calls g).At mem0 p →
      DInv calls mem0 S (s.step calls g) := by
    intro p hp hw hns hns' hatp
    have e1 : (s.step calls g).mem = s.mem := hw
    have e2 : (s.step calls g).pc = Function.update s.pc g p := by rw [← hp]; rfl
    constructor
    · intro k hk
      rw [e2]
      by_cases hkg : k = g
      · subst hkg; rw [Function.update_self]; exact hatp
      · rw [Function.update_of_ne hkg]; exact h.at_ k hk
    · intro a ha
      rw [e1]
      refine h.same a fun k hk hka c => ?_
      have := ha k hk hka c
      rw [e2] at this
      by_cases hkg : k = g
      · subst hkg; exact hns' c
      · rwa [Function.update_of_ne hkg] at this
    · intro k hk c hc
      rw [e2] at hc
      rw [e1]
      by_cases hkg : k = g
      · subst hkg; rw [Function.update_self] at hc; exact absurd hc (hns c)
      · rw [Function.update_of_ne hkg] at hc; exact h.once k hk c hc
    · intro a; rw [e1]; exact h.len a
  cases hpc : s.pc g with
  | start =>
    rw [hpc] at quiet
    refine quiet _ rfl rfl ?_ (by simp) ?_
    · intro c
      simp only [DCall.next, DCall.enter]
      split
      · simp
      · split
        · simp
        · split <;> simp
    · simp only [DCall.next, DCall.enter]
      have hcm : ((calls g).receiver s.mem).check = ((calls g).receiver mem0).check := by
        unfold Mono.check
        simp only [DCall.receiver, h.len]
        rfl
      rw [hcm]
      cases hc : ((calls g).receiver mem0).check with
      | error e =>
        show ((calls g).receiver mem0).derivative (calls g).v = .error e
        unfold Mono.derivative
        rw [hc]; rfl
      | ok _ =>
        have hsz : (calls g).Sized mem0 := by
          unfold Mono.check at hc
          split at hc
          · cases hc
          · rename_i hl; simpa [DCall.receiver, DCall.Sized] using hl
        simp only
        cases hv : (calls g).v.check with
        | error e =>
          show ((calls g).receiver mem0).derivative (calls g).v = .error e
          unfold Mono.derivative
          rw [hc, hv]; rfl
        | ok _ =>
          simp only
          cases hf : findVar (calls g).v (calls g).vars with
          | none =>
            refine ⟨?_, ?_⟩
            · unfold Mono.derivative
              rw [hc, hv, Go.ok_bind, Go.ok_bind]
              simp only [DCall.receiver, hf]
              rfl
            · rintro ⟨i, e, h1, -⟩
              rw [hf] at h1; cases h1
          | some i => exact ⟨hsz, hv, hf⟩
  | first i =>
    rw [hpc] at hat quiet
    obtain ⟨hsz, hv, hi⟩ := hat
    have hmem := h.sees hA hg (occurs_of_find hi) (by rw [hpc]; simp)
    have hlt : i < (mem0 (calls g).addr).length := by rw [hsz]; exact findVar_lt hi
    have he := List.getElem?_eq_getElem hlt
    by_cases h1 : (mem0 (calls g).addr)[i] = 1 ∧ (calls g).vars.length = 1
    · refine quiet (.done (.own (.k (calls g).coeff))) ?_ rfl (by simp) (by simp) ⟨?_, ?_⟩
      · simp only [DCall.next, hmem, he]
        rw [if_pos h1]
      · rw [DCall.derivative_eq hsz hv hi he, if_pos h1]
      · rw [DCall.counts_iff hi he]; exact fun h => h h1.1
    · refine quiet (.second i) ?_ rfl (by simp) (by simp) ⟨hsz, hv, hi, ?_⟩
      · simp only [DCall.next, hmem, he]
        rw [if_neg h1]
      · rw [he, Option.some.injEq]; exact h1
  | second i =>
    rw [hpc] at hat quiet
    obtain ⟨hsz, hv, hi, hno⟩ := hat
    have hmem := h.sees hA hg (occurs_of_find hi) (by rw [hpc]; simp)
    have hlt : i < (mem0 (calls g).addr).length := by rw [hsz]; exact findVar_lt hi
    have he := List.getElem?_eq_getElem hlt
    by_cases h1 : (mem0 (calls g).addr)[i] = 1
    · refine quiet (.copying i 0 []) ?_ rfl (by simp) (by simp) ⟨hsz, hv, hi, ?_, ?_, by omega, by simp⟩
      · simp only [DCall.next, hmem, he]
        rw [if_pos h1]
      · intro hl; exact hno ⟨by rw [he, h1], hl⟩
      · rw [he, h1]
    · refine quiet (.coef i) ?_ rfl (by simp) (by simp) ⟨hsz, hv, hi, _, he, h1⟩
      simp only [DCall.next, hmem, he]
      rw [if_neg h1]
  | copying i k es =>
    rw [hpc] at hat quiet
    obtain ⟨hsz, hv, hi, hl, h1, hk, rfl⟩ := hat
    have hmem := h.sees hA hg (occurs_of_find hi) (by rw [hpc]; simp)
    have hsz' : (mem0 (calls g).addr).length = (calls g).vars.length := hsz
    by_cases hkl : k < (calls g).vars.length
    · have he := List.getElem?_eq_getElem (l := mem0 (calls g).addr) (i := k) (by omega)
      have htk : (mem0 (calls g).addr).take (k + 1) = (mem0 (calls g).addr).take k ++ [(mem0 (calls g).addr)[k]] := by
        rw [List.take_add_one, he]; rfl
      have hlk : ((mem0 (calls g).addr).take k).length = k := by rw [List.length_take]; omega
      by_cases hki : k = i
      · refine quiet (.copying i (k + 1) (((mem0 (calls g).addr).take k).eraseIdx i)) ?_ rfl (by simp) (by simp)
          ⟨hsz, hv, hi, hl, h1, by omega, ?_⟩
        · simp only [DCall.next]
          rw [if_pos hkl, if_pos hki]
        · rw [htk, List.eraseIdx_of_length_le (by omega), List.eraseIdx_append_of_length_le (by omega), hlk, show i - k = 0 by omega]
          simp
      · refine quiet (.copying i (k + 1) (((mem0 (calls g).addr).take k).eraseIdx i ++ [(mem0 (calls g).addr)[k]])) ?_
          rfl (by simp) (by simp) ⟨hsz, hv, hi, hl, h1, by omega, ?_⟩
        · simp only [DCall.next, hmem, he]
          rw [if_pos hkl, if_neg hki]
        · rw [htk]
          by_cases hlt : i < k
          · rw [List.eraseIdx_append_of_lt_length (by omega)]
          · rw [List.eraseIdx_of_length_le (by omega), List.eraseIdx_of_length_le (by simp; omega)]
    · refine quiet (.done (.own (.mono ⟨(calls g).coeff, ((mem0 (calls g).addr).take k).eraseIdx i,
        (calls g).vars.eraseIdx i⟩))) ?_ rfl (by simp) (by simp) ⟨?_, ?_⟩
      · simp only [DCall.next]
        rw [if_neg hkl]
      · rw [DCall.derivative_eq hsz hv hi h1, if_neg (by simp [hl]), if_pos rfl, List.take_of_length_le (by omega)]
      · rw [DCall.counts_iff hi h1]; simp
  | coef i =>
    rw [hpc] at hat quiet
    obtain ⟨hsz, hv, hi, e, he, h1⟩ := hat
    have hmem := h.sees hA hg (occurs_of_find hi) (by rw [hpc]; simp)
    refine quiet (.dec i (GoNum.mul (calls g).coeff (GoNum.ofInt e))) ?_ rfl (by simp) (by simp)
      ⟨hsz, hv, hi, e, he, h1, rfl⟩
    simp only [DCall.next, hmem, he]
  | dec i c' =>
    rw [hpc] at hat quiet
    obtain ⟨hsz, hv, hi, e, he, h1, hc⟩ := hat
    have hmem := h.sees hA hg (occurs_of_find hi) (by rw [hpc]; simp)
    refine quiet (.write i c' e) ?_ rfl (by simp) (by simp) ⟨hsz, hv, hi, he, h1, hc⟩
    simp only [DCall.next, hmem, he]
  | done o =>
    have : s.step calls g = s := by
      unfold DState.step
      rw [hpc]
      simp only [DCall.next, DCall.writes]
      have : Function.update s.pc g (.done o) = s.pc := by rw [← hpc]; exact Function.update_eq_self g s.pc
      rw [this]
    rw [this]
    exact h
  | write i c' e =>
    rw [hpc] at hat
    obtain ⟨hsz, hv, hi, he, h1, hc⟩ := hat
    have hmem := h.sees hA hg (occurs_of_find hi) (by rw [hpc]; simp)
    have e1 : (s.step calls g).mem =
        Function.update s.mem (calls g).addr ((mem0 (calls g).addr).modify i (· - 1)) := by
      unfold DState.step
      rw [hpc]
      simp only [DCall.writes, hmem]
      rw [set_eq_modify he]
    have e2 : (s.step calls g).pc = Function.update s.pc g (.done (.shared c')) := by
      unfold DState.step
      rw [hpc]
      rfl
    have hcount : (calls g).Counts mem0 := ⟨i, e, hi, he, h1⟩
    constructor
    · intro k hk
      rw [e2]
      by_cases hkg : k = g
      · subst hkg; rw [Function.update_self]; exact ⟨hsz, hv, i, e, hi, he, h1, hc⟩
      · rw [Function.update_of_ne hkg]; exact h.at_ k hk
    · intro a ha
      have hne : a ≠ (calls g).addr := by
        rintro rfl
        have := ha g hg rfl c'
        rw [e2, Function.update_self] at this
        exact this rfl
      rw [e1, Function.update_of_ne hne]
      refine h.same a fun k hk hka c => ?_
      have := ha k hk hka c
      rw [e2] at this
      by_cases hkg : k = g
      · subst hkg; rw [hpc]; simp
      · rwa [Function.update_of_ne hkg] at this
    · intro k hk c hc'
      rw [e2] at hc'
      by_cases hkg : k = g
      · subst hkg
        refine ⟨i, hi, ?_⟩
        rw [e1, Function.update_self]
      · rw [Function.update_of_ne hkg] at hc'
        have hat' := h.at_ k hk
        rw [hc'] at hat'
        obtain ⟨-, -, i', e', hi', he', h1', -⟩ := hat'
        have hne : (calls k).addr ≠ (calls g).addr := fun ha =>
          hA k hk g hg hkg ha ⟨i', e', hi', he', h1'⟩ (occurs_of_find hi)
        rw [e1, Function.update_of_ne hne]
        exact h.once k hk c hc'
    · intro a
      rw [e1]
      by_cases ha : a = (calls g).addr
      · subst ha; rw [Function.update_self]; simp
      · rw [Function.update_of_ne ha]; exact h.len a

theorem DInv.run {calls : ι → DCall R} {mem0 : DMem} {S : Set ι} (hA : Apart calls mem0 S) (sched : List ι)
    (hS : ∀ g ∈ sched, g ∈ S) {s : DState R ι} (h : DInv calls mem0 S s) : DInv calls mem0 S (s.run calls sched) := by
  induction sched generalizing s with
  | nil => exact h
  | cons g l ih =>
    exact ih (fun k hk => hS k (by simp [hk])) (h.step hA (hS g (by simp)))

theorem DInv.outcome {calls : ι → DCall R} {mem0 : DMem} {S : Set ι} {s : DState R ι} (h : DInv calls mem0 S s)
    {g : ι} (hg : g ∈ S) {o : Go (Scalar R)} (ho : s.outcome calls g = some o) :
    o = ((calls g).receiver mem0).derivative (calls g).v := by
  have hat := h.at_ g hg
  unfold DState.outcome at ho
  split at ho
  · rename_i e hpc
    rw [hpc] at hat
    rw [← Option.some.inj ho]; exact hat.symm
  · rename_i r hpc
    rw [hpc] at hat
    rw [← Option.some.inj ho]; exact hat.1.symm
  · rename_i c hpc
    rw [hpc] at hat
    obtain ⟨hsz, hv, i, e, hi, he, h1, rfl⟩ := hat
    obtain ⟨i', hi', hm⟩ := h.once g hg _ hpc
    rw [hi, Option.some.injEq] at hi'
    subst hi'
    rw [← Option.some.inj ho, DCall.derivative_eq hsz hv hi he, if_neg (fun h => h1 h.1), if_neg h1, hm]
  · cases ho

/-- C82: calls that are apart return, under every schedule, exactly what each would return alone, and what they returned
does not change later.  Every number type; receivers of any kind, well-formed or not. -/
theorem deriv_race_apart {calls : ι → DCall R} {mem0 : DMem} {S : Set ι} (hA : Apart calls mem0 S) (sched : List ι)
    (hS : ∀ g ∈ sched, g ∈ S) {g : ι} (hg : g ∈ S) {o : Go (Scalar R)}
    (ho : ((DState.begin mem0).run calls sched).outcome calls g = some o) :
    o = ((calls g).receiver mem0).derivative (calls g).v :=
  ((DInv.begin calls mem0 S (s := DState.begin mem0) rfl (fun _ _ => rfl)).run hA sched hS).outcome hg ho

/-- C82: the exponents of a slice after such a run: counted down once if a call that counts has ended, as at the beginning
otherwise. -/
theorem deriv_race_memory {calls : ι → DCall R} {mem0 : DMem} {S : Set ι} (hA : Apart calls mem0 S) (sched : List ι)
    (hS : ∀ g ∈ sched, g ∈ S) (a : ℕ) :
    ((DState.begin mem0).run calls sched).mem a = mem0 a ∨
      ∃ g ∈ S, (calls g).addr = a ∧ (calls g).Counts mem0 ∧ ∃ i, findVar (calls g).v (calls g).vars = some i ∧
        ((DState.begin mem0).run calls sched).mem a = (mem0 a).modify i (· - 1) := by
  have h := (DInv.begin calls mem0 S (s := DState.begin mem0) rfl (fun _ _ => rfl)).run hA sched hS
  by_cases hq : ∀ g ∈ S, (calls g).addr = a → ∀ c, ((DState.begin mem0).run calls sched).pc g ≠ .done (.shared c)
  · exact Or.inl (h.same a hq)
  · push Not at hq
    obtain ⟨g, hg, rfl, c, hc⟩ := hq
    obtain ⟨i, hi, hm⟩ := h.once g hg c hc
    have hat := h.at_ g hg
    rw [hc] at hat
    obtain ⟨-, -, i', e, hi', he, h1, -⟩ := hat
    exact Or.inr ⟨g, hg, rfl, ⟨i', e, hi', he, h1⟩, i, hi, hm⟩

/-! ## Every call ends -/

/-- Steps left, at most. -/
def DCall.left (c : DCall R) : DPC R → ℕ
  | .start => c.vars.length + 6
  | .first _ => c.vars.length + 5
  | .second _ => c.vars.length + 4
  | .copying _ k _ => c.vars.length - k + 1
  | .coef _ => 3
  | .dec _ _ => 2
  | .write _ _ _ => 1
  | .done _ => 0

theorem DCall.left_next (c : DCall R) (mem : DMem) (p : DPC R) : c.left (c.next mem p) ≤ c.left p - 1 := by
  cases p with
  | start =>
    simp only [DCall.next, DCall.enter]
    split
    · simp [DCall.left]
    · split
      · simp [DCall.left]
      · split <;> simp [DCall.left]
  | first i =>
    simp only [DCall.next]
    split
    · simp [DCall.left]
    · split <;> simp [DCall.left]
  | second i =>
    simp only [DCall.next]
    split
    · simp [DCall.left]
    · split <;> simp [DCall.left]
  | copying i k es =>
    simp only [DCall.next]
    split
    · split
      · simp only [DCall.left]; omega
      · split
        · simp [DCall.left]
        · simp only [DCall.left]; omega
    · simp [DCall.left]
  | coef i =>
    simp only [DCall.next]
    split <;> simp [DCall.left]
  | dec i c' =>
    simp only [DCall.next]
    split <;> simp [DCall.left]
  | write => simp [DCall.next, DCall.left]
  | done => simp [DCall.next, DCall.left]

theorem DState.left_run (calls : ι → DCall R) (sched : List ι) (s : DState R ι) (g : ι) :
    (calls g).left ((s.run calls sched).pc g) ≤ (calls g).left (s.pc g) - sched.count g := by
  induction sched generalizing s with
  | nil => simp [DState.run]
  | cons k l ih =>
    have h := ih (s.step calls k)
    show (calls g).left (((s.step calls k).run calls l).pc g) ≤ _
    by_cases hk : g = k
    · subst hk
      have h1 : (s.step calls g).pc g = (calls g).next s.mem (s.pc g) := Function.update_self ..
      have h2 := (calls g).left_next s.mem (s.pc g)
      rw [h1] at h
      rw [List.count_cons_self]
      omega
    · have h1 : (s.step calls k).pc g = s.pc g := Function.update_of_ne hk ..
      rw [h1] at h
      rw [List.count_cons_of_ne (fun h => hk h.symm)]
      exact h

theorem DState.outcome_of_left {calls : ι → DCall R} {s : DState R ι} {g : ι} (h : (calls g).left (s.pc g) = 0) :
    ∃ o, s.outcome calls g = some o := by
  unfold DState.outcome
  cases hp : s.pc g with
  | done o => cases o <;> exact ⟨_, rfl⟩
  | start => rw [hp] at h; simp [DCall.left] at h
  | first => rw [hp] at h; simp [DCall.left] at h
  | second => rw [hp] at h; simp [DCall.left] at h
  | copying => rw [hp] at h; simp [DCall.left] at h
  | coef => rw [hp] at h; simp [DCall.left] at h
  | dec => rw [hp] at h; simp [DCall.left] at h
  | write => rw [hp] at h; simp [DCall.left] at h

/-- C82: nobody waits: a call has ended after as many steps of its own as it has factors, plus six, whatever the others do. -/
theorem deriv_race_ends (calls : ι → DCall R) (mem : DMem) (sched : List ι) (g : ι)
    (h : (calls g).vars.length + 6 ≤ sched.count g) :
    ∃ o, ((DState.begin mem).run calls sched).outcome calls g = some o := by
  apply DState.outcome_of_left
  have := DState.left_run calls sched (DState.begin mem) g
  have h0 : (calls g).left ((DState.begin mem : DState R ι).pc g) = (calls g).vars.length + 6 := rfl
  omega

/-! ## Calls that are not apart -/

/-- The schedule on which `g` runs alone and then `h`. -/
def oneByOne (calls : ι → DCall R) (g h : ι) : List ι :=
  List.replicate ((calls g).vars.length + 6) g ++ List.replicate ((calls h).vars.length + 6) h

theorem DState.run_append (calls : ι → DCall R) (s : DState R ι) (l l' : List ι) :
    s.run calls (l ++ l') = (s.run calls l).run calls l' := List.foldl_append

theorem DState.pc_run_of_notMem (calls : ι → DCall R) (s : DState R ι) {l : List ι} {h : ι} (hl : h ∉ l) :
    (s.run calls l).pc h = s.pc h := by
  induction l generalizing s with
  | nil => rfl
  | cons k l ih =>
    simp only [List.mem_cons, not_or] at hl
    show ((s.step calls k).run calls l).pc h = _
    rw [ih _ hl.2]
    exact Function.update_of_ne hl.1 ..

theorem apart_singleton (calls : ι → DCall R) (mem : DMem) (g : ι) : Apart calls mem {g} := by
  intro k hk h hh hne
  rw [Set.mem_singleton_iff] at hk hh
  exact absurd (hk.trans hh.symm) hne

/-- A call that counts, made before another one begins, changes what the other is given. -/
theorem deriv_race_oneByOne {calls : ι → DCall R} {mem0 : DMem} {g h : ι} (hgh : g ≠ h)
    (hsz : (calls g).Sized mem0) (hv : (calls g).v.check = .ok ()) (hc : (calls g).Counts mem0)
    (ha : (calls g).addr = (calls h).addr) :
    ∃ i, findVar (calls g).v (calls g).vars = some i ∧
      ((DState.begin mem0).run calls (oneByOne calls g h)).outcome calls h =
        some (Mono.derivative ⟨(calls h).coeff, (mem0 (calls h).addr).modify i (· - 1), (calls h).vars⟩ (calls h).v) := by
  obtain ⟨i, e, hi, he, h1⟩ := hc
  refine ⟨i, hi, ?_⟩
  rw [oneByOne, DState.run_append]
  set s1 : DState R ι := (DState.begin mem0).run calls (List.replicate ((calls g).vars.length + 6) g) with hs1
  have hI := (DInv.begin calls mem0 {g} (s := DState.begin mem0) rfl (fun _ _ => rfl)).run (apart_singleton calls mem0 g)
    (List.replicate ((calls g).vars.length + 6) g) (fun k hk => by simpa using List.eq_of_mem_replicate hk)
  rw [← hs1] at hI
  obtain ⟨o, ho⟩ := deriv_race_ends calls mem0 (List.replicate ((calls g).vars.length + 6) g) g (by simp)
  rw [← hs1] at ho
  have hshared : ∃ c, s1.pc g = .done (.shared c) := by
    have hat := hI.at_ g rfl
    unfold DState.outcome at ho
    split at ho
    · rename_i e' hpc
      rw [hpc] at hat
      have : Mono.derivative _ _ = _ := hat
      rw [DCall.derivative_eq hsz hv hi he, if_neg (fun h => h1 h.1), if_neg h1] at this
      cases this
    · rename_i r hpc
      rw [hpc] at hat
      exact absurd ⟨i, e, hi, he, h1⟩ hat.2
    · exact ⟨_, by assumption⟩
    · cases ho
  obtain ⟨c, hpc⟩ := hshared
  obtain ⟨i', hi', hm⟩ := hI.once g rfl c hpc
  rw [hi, Option.some.injEq] at hi'
  subst hi'
  have hstart : s1.pc h = .start := by
    rw [hs1, DState.pc_run_of_notMem]
    · rfl
    · intro hmem
      exact hgh (List.eq_of_mem_replicate hmem).symm
  have hI2 := (DInv.begin calls s1.mem {h} (s := s1) rfl (fun k hk => by rw [Set.mem_singleton_iff.mp hk]; exact hstart)).run
    (apart_singleton calls s1.mem h) (List.replicate ((calls h).vars.length + 6) h)
    (fun k hk => by simpa using List.eq_of_mem_replicate hk)
  obtain ⟨o2, ho2⟩ : ∃ o, (s1.run calls (List.replicate ((calls h).vars.length + 6) h)).outcome calls h = some o := by
    apply DState.outcome_of_left
    have := DState.left_run calls (List.replicate ((calls h).vars.length + 6) h) s1 h
    rw [hstart, List.count_replicate_self] at this
    have h0 : (calls h).left DPC.start = (calls h).vars.length + 6 := rfl
    omega
  rw [ho2, hI2.outcome rfl ho2]
  show some (Mono.derivative ⟨(calls h).coeff, s1.mem (calls h).addr, (calls h).vars⟩ (calls h).v) = _
  rw [← ha, hm]

/-- Counting down first changes the derivative. -/
theorem derivative_modify_ne {c : DCall R} {mem : DMem} (hsz : c.Sized mem) (hv : c.v.check = .ok ()) (ho : c.Occurs)
    {i : ℕ} {e : Int} (he : (mem c.addr)[i]? = some e) (h1 : e ≠ 1) :
    Mono.derivative ⟨c.coeff, (mem c.addr).modify i (· - 1), c.vars⟩ c.v ≠ (c.receiver mem).derivative c.v := by
  obtain ⟨j, hj⟩ := findVar_isSome ho
  have hsz0 : (mem c.addr).length = c.vars.length := hsz
  have hjl : j < (mem c.addr).length := by rw [hsz0]; exact findVar_lt hj
  have hil : i < (mem c.addr).length := by
    by_contra hc
    rw [List.getElem?_eq_none (by omega)] at he
    cases he
  have hej := List.getElem?_eq_getElem hjl
  have hei : (mem c.addr)[i] = e := by rw [List.getElem?_eq_getElem hil] at he; exact Option.some.inj he
  set mem' : DMem := Function.update mem c.addr ((mem c.addr).modify i (· - 1)) with hmem'
  have hm' : mem' c.addr = (mem c.addr).modify i (· - 1) := Function.update_self ..
  have hr : (⟨c.coeff, (mem c.addr).modify i (· - 1), c.vars⟩ : Mono R) = c.receiver mem' := by
    unfold DCall.receiver; rw [hm']
  have hsz' : c.Sized mem' := by
    show (mem' c.addr).length = _
    rw [hm', List.length_modify]; exact hsz
  have hlen' : j < (mem' c.addr).length := by rw [hm', List.length_modify]; exact hjl
  have hej' := List.getElem?_eq_getElem hlen'
  have hval : (mem' c.addr)[j] = if i = j then (mem c.addr)[j] - 1 else (mem c.addr)[j] := by
    simp only [hm', List.getElem_modify]
  rw [hr, DCall.derivative_eq hsz hv hj hej, DCall.derivative_eq hsz' hv hj hej']
  have hne' : ((mem' c.addr).modify j (· - 1)) ≠ (mem c.addr).modify j (· - 1) := by
    intro hc
    have := congrArg (·[i]?) hc
    rw [hm'] at this
    by_cases hij : j = i
    · subst hij
      simp [List.getElem?_eq_getElem hil] at this
    · simp [List.getElem?_eq_getElem hil, hij] at this
  by_cases hij : i = j
  · subst hij
    rw [if_pos rfl] at hval
    rw [if_neg (c := (mem c.addr)[i] = 1 ∧ _) (by rw [hei]; exact fun h => h1 h.1),
      if_neg (c := (mem c.addr)[i] = 1) (by rw [hei]; exact h1)]
    split
    · intro hc; cases hc
    · split
      · intro hc
        simp only [Except.ok.injEq, Scalar.mono.injEq, Mono.mk.injEq] at hc
        have := congrArg List.length hc.2.2
        rw [List.length_eraseIdx, if_pos (by omega)] at this
        omega
      · intro hc
        simp only [Except.ok.injEq, Scalar.mono.injEq, Mono.mk.injEq] at hc
        exact hne' hc.2.1
  · rw [if_neg hij] at hval
    have hl : c.vars.length ≠ 1 := by omega
    rw [hval, if_neg (c := (mem c.addr)[j] = 1 ∧ _) (fun h => hl h.2), if_neg (c := (mem c.addr)[j] = 1 ∧ _) (fun h => hl h.2)]
    split
    · intro hc
      simp only [Except.ok.injEq, Scalar.mono.injEq, Mono.mk.injEq] at hc
      have h2 := hc.2.1
      rw [hm'] at h2
      by_cases hlt : i < j
      · have := congrArg (·[i]?) h2
        simp [List.getElem?_eraseIdx, hlt, List.getElem?_eq_getElem hil] at this
      · have := congrArg (·[i - 1]?) h2
        have e1 : ¬ (i - 1 < j) := by omega
        have e2 : i - 1 + 1 = i := by omega
        simp [List.getElem?_eraseIdx, e1, e2, List.getElem?_eq_getElem hil] at this
    · intro hc
      simp only [Except.ok.injEq, Scalar.mono.injEq, Mono.mk.injEq] at hc
      exact hne' hc.2.1

/-- C82: calls on well-formed receivers all return what they would return alone, under every schedule, exactly if no slice
in which one of them counts down is differentiated by another. -/
theorem deriv_race_iff {calls : ι → DCall R} {mem0 : DMem} (hsz : ∀ g, (calls g).Sized mem0)
    (hv : ∀ g, (calls g).v.check = .ok ()) :
    (∀ (sched : List ι) (g : ι) (o : Go (Scalar R)), ((DState.begin mem0).run calls sched).outcome calls g = some o →
      o = ((calls g).receiver mem0).derivative (calls g).v) ↔
    Apart calls mem0 Set.univ := by
  constructor
  · intro hall g _ h _ hgh ha hc ho
    obtain ⟨i, hi, hout⟩ := deriv_race_oneByOne hgh (hsz g) (hv g) hc ha
    obtain ⟨i', e, hi', he, h1⟩ := hc
    rw [hi, Option.some.injEq] at hi'
    subst hi'
    rw [ha] at he
    exact derivative_modify_ne (hsz h) (hv h) ho he h1 (hall _ h _ hout)
  · intro hA sched g o ho
    exact deriv_race_apart hA sched (fun _ _ => trivial) trivial ho

/-! ## The values -/

section Value
open MvPolynomial
variable {K : Type} [Field K] [LinearOrder K]

/-- C82: under every schedule, a call that is apart from the others and has ended returned the partial derivative of what its
receiver meant at the beginning. -/
theorem deriv_race_denotes {calls : ι → DCall K} {mem0 : DMem} {S : Set ι} (hA : Apart calls mem0 S) (sched : List ι)
    (hS : ∀ g ∈ sched, g ∈ S) {g : ι} (hg : g ∈ S) (hm : ((calls g).receiver mem0).Canon) (hv : (calls g).v.OK)
    (hn : (calls g).vars.length + 6 ≤ sched.count g) :
    ∃ r, ((DState.begin mem0).run calls sched).outcome calls g = some (.ok r) ∧
      r.den = pderiv (calls g).v.id ((calls g).receiver mem0).den := by
  obtain ⟨o, ho⟩ := deriv_race_ends calls mem0 sched g hn
  obtain ⟨r, hr, hd⟩ := Mono.derivative_ok hm hv
  rw [deriv_race_apart hA sched hS hg ho, hr] at ho
  exact ⟨r, ho, hd.den hm⟩

/-- C82: a call made after another one has counted down in its slice returns something else than the derivative. -/
theorem deriv_race_wrong [CharZero K] {calls : ι → DCall K} {mem0 : DMem} {g h : ι} (hgh : g ≠ h)
    (hg : ((calls g).receiver mem0).Canon) (hvg : (calls g).v.OK)
    (hh : ((calls h).receiver mem0).Canon) (hvh : (calls h).v.OK) (h0 : (calls h).coeff ≠ 0)
    (ha : (calls g).addr = (calls h).addr) (hc : (calls g).Counts mem0) (ho : (calls h).Occurs) :
    ∃ r, ((DState.begin mem0).run calls (oneByOne calls g h)).outcome calls h = some (.ok r) ∧
      r.den ≠ pderiv (calls h).v.id ((calls h).receiver mem0).den := by
  obtain ⟨i, hi, hout⟩ := deriv_race_oneByOne hgh hg.len hvg.check hc ha
  obtain ⟨i', e, hi', he, h1⟩ := hc
  rw [hi, Option.some.injEq] at hi'
  subst hi'
  rw [ha] at he
  have hpos : 0 < e := hh.pos e (List.mem_of_getElem? he)
  set m' : Mono K := ⟨(calls h).coeff, (mem0 (calls h).addr).modify i (· - 1), (calls h).vars⟩ with hm'
  have hcan : m'.Canon := by
    refine ⟨?_, ?_, hh.nodup, hh.ok⟩
    · show ((mem0 (calls h).addr).modify i (· - 1)).length = _
      rw [List.length_modify]; exact hh.len
    · intro x hx
      rcases mem_of_mem_modify hx with hx | ⟨y, hy, rfl⟩
      · exact hh.pos x hx
      · rw [he, Option.some.injEq] at hy
        subst hy
        show 0 < e - 1
        omega
  obtain ⟨r, hr, hd⟩ := Mono.derivative_ok hcan hvh
  rw [hr] at hout
  refine ⟨r, hout, ?_⟩
  rw [hd.den hcan]
  have hil : i < (calls h).vars.length := by
    have h2 : (mem0 (calls h).addr).length = (calls h).vars.length := hh.len
    by_contra hc
    rw [List.getElem?_eq_none (by omega)] at he
    cases he
  have hdeg : m'.degs + Finsupp.single (calls h).vars[i].id 1 = ((calls h).receiver mem0).degs :=
    pdegs_zip_modify_sub hh.len (List.getElem?_eq_getElem hil) he hpos
  obtain ⟨j, hj⟩ := findVar_isSome ho
  obtain ⟨w, hw, hwv⟩ := findVar_some hj
  have hjl : j < (mem0 (calls h).addr).length := by
    have h2 : (mem0 (calls h).addr).length = (calls h).vars.length := hh.len
    rw [h2]; exact findVar_lt hj
  have hpj : 1 ≤ m'.degs (calls h).v.id := by
    have h3 : j < m'.exps.length := by
      show j < ((mem0 (calls h).addr).modify i (· - 1)).length
      rw [List.length_modify]; exact hjl
    have h4 := hcan.degs_apply (v := w) (e := m'.exps[j]) (by
      rw [List.mem_iff_getElem?]
      refine ⟨j, ?_⟩
      rw [List.getElem?_zip_eq_some]
      exact ⟨hw, List.getElem?_eq_getElem h3⟩)
    rw [hwv] at h4
    have h5 := hcan.pos _ (List.getElem_mem h3)
    omega
  have e1 : pderiv (calls h).v.id m'.den =
      monomial (m'.degs - Finsupp.single (calls h).v.id 1) ((calls h).coeff * (m'.degs (calls h).v.id : K)) := by
    unfold Mono.den
    rw [pderiv_monomial]
  have e2 : pderiv (calls h).v.id ((calls h).receiver mem0).den =
      monomial (((calls h).receiver mem0).degs - Finsupp.single (calls h).v.id 1)
        ((calls h).coeff * (((calls h).receiver mem0).degs (calls h).v.id : K)) := by
    unfold Mono.den
    rw [pderiv_monomial]
    rfl
  rw [e1, e2]
  intro hc
  have hne : (calls h).coeff * (m'.degs (calls h).v.id : K) ≠ 0 := mul_ne_zero h0 (by exact_mod_cast (by omega))
  rw [MvPolynomial.monomial_eq_monomial_iff] at hc
  rcases hc with ⟨hc, -⟩ | ⟨hc, -⟩
  · have h6 := DFunLike.congr_fun hc (calls h).vars[i].id
    have h7 := DFunLike.congr_fun hdeg (calls h).vars[i].id
    simp only [Finsupp.tsub_apply, Finsupp.add_apply, Finsupp.single_eq_same] at h6 h7
    by_cases hid : (calls h).v.id = (calls h).vars[i].id
    · rw [hid] at hpj h6
      rw [Finsupp.single_eq_same] at h6
      omega
    · rw [Finsupp.single_eq_of_ne (fun h => hid h.symm)] at h6
      omega
  · exact hne hc

end Value

/-! ## Examples -/

/-- Two goroutines differentiate `c x^e y^f` with one exponent slice, the first by `x` and the second by the variable `j`. -/
def sharedCalls (j : ℕ) : Fin 2 → DCall ℚ :=
  ![⟨1, 0, [wx, wy], wx⟩, ⟨1, 0, [wx, wy], wv j⟩]

-- the exponents are one: apart, though the slice is shared and both differentiate it
example : Apart (sharedCalls 1) (fun _ => [1, 1]) Set.univ := by
  rintro g - h - - - ⟨i, e, hi, he, h1⟩ -
  exfalso
  fin_cases g
  · have : i = 0 := by
      have : findVar wx [wx, wy] = some 0 := by decide +kernel
      exact Option.some.inj (hi.symm.trans this)
    subst this
    exact h1 (Option.some.inj he).symm
  · have : i = 1 := by
      have : findVar wy [wx, wy] = some 1 := by decide +kernel
      exact Option.some.inj (hi.symm.trans this)
    subst this
    exact h1 (Option.some.inj he).symm

-- one of them counts down and the other differentiates by a variable that does not occur: apart
example : Apart (sharedCalls 2) (fun _ => [3, 1]) Set.univ := by
  intro g _ h _ hgh _ hc
  have h2 : ¬ (sharedCalls 2 1).Occurs := by
    show (2 : ℕ) ∉ [0, 1]
    decide
  fin_cases h
  · fin_cases g
    · exact absurd rfl hgh
    · exact absurd hc.occurs h2
  · exact h2

-- both differentiate by `x` and the exponent is two: not apart
example : ¬ Apart (sharedCalls 0) (fun _ => [2, 1]) Set.univ := by
  intro h
  refine h 0 trivial 1 trivial (by decide) rfl ⟨0, 2, by decide +kernel, rfl, by decide⟩ ?_
  show (0 : ℕ) ∈ [0, 1]
  decide

-- the receivers of `deriv_race_iff` and of `deriv_race_wrong`
example : ∀ g, (sharedCalls 0 g).Sized (fun _ => [2, 1]) ∧ (sharedCalls 0 g).v.check = .ok () := by
  intro g
  fin_cases g <;> exact ⟨rfl, by decide +kernel⟩

example : ∀ g, ((sharedCalls 0 g).receiver fun _ => [2, 1]).Canon ∧ (sharedCalls 0 g).v.OK ∧ (sharedCalls 0 g).coeff ≠ 0 := by
  intro g
  fin_cases g <;> exact ⟨wm2_canon 1 (i := 0) (j := 1) (by decide) (by decide) (by decide), wv_ok 0, one_ne_zero⟩

/-- C82: not so in general: two calls take turns on `x^2 y`, both multiply by two, then both count
down, and both return `2 x^0 y` instead of `2 x y`. -/
theorem deriv_race_false : ∀ g : Fin 2,
    ((DState.begin fun _ => [2, 1]).run (sharedCalls 0) [0, 0, 0, 0, 1, 1, 1, 1, 0, 0, 1, 1]).outcome (sharedCalls 0) g =
      some (.ok (.mono ⟨2, [0, 1], [wx, wy]⟩)) := by decide +kernel

/-- C82: not so in general: two calls on `x^3 y` one after the other: the second takes the derivative of what the first left. -/
theorem deriv_race_serial_false :
    ((DState.begin fun _ => [3, 1]).run (sharedCalls 0) (oneByOne (sharedCalls 0) 0 1)).outcome (sharedCalls 0) 1 =
      some (.ok (.mono ⟨2, [1, 1], [wx, wy]⟩)) := by decide +kernel

/-- C82: a lost update: both calls read the exponent before either writes it, it is counted down once, and both results are
right by accident. -/
theorem deriv_race_lost : ∀ g : Fin 2,
    ((DState.begin fun _ => [2, 1]).run (sharedCalls 0) [0, 0, 0, 0, 0, 1, 1, 1, 1, 1, 0, 1]).outcome (sharedCalls 0) g =
      some (.ok (.mono ⟨2, [1, 1], [wx, wy]⟩)) := by decide +kernel

end Verif
