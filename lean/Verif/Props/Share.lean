import Verif.Model.Share
import Verif.Props.ArithNeg

/-!
# C44: goroutines that multiply the same monomial

The claim is false if the receiver's slice of variables has spare capacity: one goroutine's `append`
overwrites what another has appended and not yet read.  It is true if the factors that fit into the
spare capacity agree on the variables written to each place, in particular if there is no spare
capacity, or if only one factor fits.
-/

set_option linter.unusedSectionVars false

namespace Verif

deriving instance DecidableEq for MulPC

variable {R : Type} [GoNum R]

theorem mulMono_eq (m r : Mono R) : m.mulMono r = m.mulWith r (uniqueVars (m.vars ++ r.vars)) := rfl

/-- The factor fits into the spare capacity. -/
def Room (len cap : ℕ) (r : Mono R) : Prop := len + r.vars.length ≤ cap

instance (len cap : ℕ) (r : Mono R) : Decidable (Room len cap r) := by unfold Room; infer_instance

/-- Factors that fit put the same variable at each place. -/
def Agree (len cap : ℕ) (rs : ℕ → Mono R) : Prop :=
  ∀ i j, Room len cap (rs i) → Room len cap (rs j) → ∀ (p : ℕ) (v w : Var R),
    (rs i).vars[p]? = some v → (rs j).vars[p]? = some w → v = w

/-- What is known about goroutine `i`. -/
def PCInv (c : R) (exps : List Int) (len : ℕ) (arr0 : List (Var R)) (r : Mono R) (arr : List (Var R)) :
    MulPC R → Prop
  | .start => True
  | .writing k => Room len arr0.length r ∧ k ≤ r.vars.length ∧
      ∀ p, p < k → arr[len + p]? = r.vars[p]?
  | .reading k out => Room len arr0.length r ∧ k ≤ len + r.vars.length ∧
      (∀ p, p < r.vars.length → arr[len + p]? = r.vars[p]?) ∧
      out = ((arr0.take len ++ r.vars).take k).foldl uniqueStep []
  | .own vs => vs = arr0.take len ++ r.vars
  | .done res => res = (sharedMono c exps len arr0).mulMono r

theorem mul_inv {c : R} {exps : List Int} {len : ℕ} {rs : ℕ → Mono R} {arr0 : List (Var R)}
    (hlen : len ≤ arr0.length) (hag : Agree len arr0.length rs) {s : MulState R}
    (hl : s.arr.length = arr0.length) (ht : s.arr.take len = arr0.take len)
    (hi : ∀ i, PCInv c exps len arr0 (rs i) s.arr (s.pc i)) (k : ℕ) :
    (s.step c exps len rs k).arr.length = arr0.length ∧
    (s.step c exps len rs k).arr.take len = arr0.take len ∧
    ∀ i, PCInv c exps len arr0 (rs i) (s.step c exps len rs k).arr ((s.step c exps len rs k).pc i) := by
  have hk := hi k
  have hother : ∀ p : MulPC R, PCInv c exps len arr0 (rs k) s.arr p →
      ∀ i, PCInv c exps len arr0 (rs i) s.arr (if i = k then p else s.pc i) := by
    intro p hp i
    split
    · next h => rw [h]; exact hp
    · exact hi i
  unfold MulState.step
  cases hpc : s.pc k with
  | start =>
    simp only
    split
    · next h =>
      rw [hl] at h
      exact ⟨hl, ht, hother (.writing 0) ⟨h, Nat.zero_le _, fun p hp => absurd hp (Nat.not_lt_zero p)⟩⟩
    · exact ⟨hl, ht, hother (.own _) (by rw [ht]; rfl)⟩
  | writing n =>
    rw [hpc] at hk
    obtain ⟨hroom, hn, hw⟩ := hk
    simp only
    cases hv : (rs k).vars[n]? with
    | none =>
      simp only
      refine ⟨hl, ht, hother (.reading 0 []) ⟨hroom, Nat.zero_le _, fun p hp => hw p ?_, rfl⟩⟩
      rw [List.getElem?_eq_none_iff] at hv
      omega
    | some v =>
      simp only
      have hn' : n < (rs k).vars.length := (List.getElem?_eq_some_iff.mp hv).1
      have hroom' : len + (rs k).vars.length ≤ arr0.length := hroom
      refine ⟨by rw [List.length_set, hl], ?_, fun i => ?_⟩
      · rw [List.take_set_of_le (by omega)]
        exact ht
      · have hread : ∀ p (r : Mono R), (∃ i, r = rs i) → Room len arr0.length r →
            p < r.vars.length → s.arr[len + p]? = r.vars[p]? →
            (s.arr.set (len + n) v)[len + p]? = r.vars[p]? := by
          rintro p _ ⟨i, rfl⟩ hri hp h
          by_cases hpn : p = n
          · subst hpn
            rw [List.getElem?_set_self (by omega)]
            obtain ⟨w, hw'⟩ : ∃ w, (rs i).vars[p]? = some w := ⟨_, List.getElem?_eq_getElem hp⟩
            rw [hw', hag k i hroom hri p v w hv hw']
          · rw [List.getElem?_set_ne (by omega)]
            exact h
        by_cases hik : i = k
        · subst hik
          simp only [if_true]
          refine ⟨hroom, hn', fun p hp => ?_⟩
          by_cases hpn : p = n
          · subst hpn
            rw [List.getElem?_set_self (by omega), hv]
          · rw [List.getElem?_set_ne (by omega)]
            exact hw p (by omega)
        · simp only [if_neg hik]
          have hi' := hi i
          cases hpci : s.pc i with
          | start => trivial
          | writing n' =>
            rw [hpci] at hi'
            exact ⟨hi'.1, hi'.2.1, fun p hp => hread p (rs i) ⟨i, rfl⟩ hi'.1 (by
              have := hi'.2.1; omega) (hi'.2.2 p hp)⟩
          | reading k' out =>
            rw [hpci] at hi'
            exact ⟨hi'.1, hi'.2.1, fun p hp => hread p (rs i) ⟨i, rfl⟩ hi'.1 hp (hi'.2.2.1 p hp),
              hi'.2.2.2⟩
          | own vs => rw [hpci] at hi'; exact hi'
          | done res => rw [hpci] at hi'; exact hi'
  | reading n out =>
    rw [hpc] at hk
    obtain ⟨hroom, hn, hw, hout⟩ := hk
    have hroom' : len + (rs k).vars.length ≤ arr0.length := hroom
    have htl : (arr0.take len).length = len := by rw [List.length_take]; omega
    simp only
    split
    · next hlt =>
      have hread : s.arr[n]? = (arr0.take len ++ (rs k).vars)[n]? := by
        by_cases h : n < len
        · rw [List.getElem?_append_left (by omega), ← ht, List.getElem?_take, if_pos h]
        · rw [List.getElem?_append_right (by omega), htl, ← hw (n - len) (by omega)]
          congr 1
          omega
      have hlt' : n < (arr0.take len ++ (rs k).vars).length := by
        rw [List.length_append, htl]
        exact hlt
      rw [hread, List.getElem?_eq_getElem hlt']
      simp only
      refine ⟨hl, ht, hother (.reading (n + 1) _) ⟨hroom, hlt, hw, ?_⟩⟩
      rw [List.take_succ_eq_append_getElem hlt', List.foldl_append, ← hout]
      rfl
    · next hge =>
      refine ⟨hl, ht, hother (.done _) ?_⟩
      show _ = _
      have hall : (arr0.take len ++ (rs k).vars).take n = arr0.take len ++ (rs k).vars :=
        List.take_of_length_le (by rw [List.length_append, htl]; omega)
      rw [mulMono_eq, hout, hall]
      unfold sharedMono
      rw [ht]
      rfl
  | own vs =>
    rw [hpc] at hk
    refine ⟨hl, ht, hother (.done _) ?_⟩
    show _ = _
    rw [mulMono_eq, show vs = arr0.take len ++ (rs k).vars from hk]
    unfold sharedMono
    rw [ht]
  | done res =>
    rw [hpc] at hk
    exact ⟨hl, ht, hother (.done res) hk⟩

/-- C44 for all schedules and any number of goroutines, if the factors that fit into the spare capacity
agree: a goroutine that has finished has the product it would obtain alone, and the shared monomial is
unchanged.  Missing: factors that do not agree (`shared_multiply_false`). -/
theorem shared_multiply_partial {c : R} {exps : List Int} {len : ℕ} {rs : ℕ → Mono R}
    {s : MulState R} (hlen : len ≤ s.arr.length) (hag : Agree len s.arr.length rs)
    (hs : ∀ i, s.pc i = .start) (sched : List ℕ) :
    sharedMono c exps len (s.run c exps len rs sched).arr = sharedMono c exps len s.arr ∧
    ∀ i res, (s.run c exps len rs sched).pc i = .done res →
      res = (sharedMono c exps len s.arr).mulMono (rs i) := by
  have main : ∀ (sched : List ℕ) (s' : MulState R), s'.arr.length = s.arr.length →
      s'.arr.take len = s.arr.take len →
      (∀ i, PCInv c exps len s.arr (rs i) s'.arr (s'.pc i)) →
      (s'.run c exps len rs sched).arr.take len = s.arr.take len ∧
      ∀ i, PCInv c exps len s.arr (rs i) (s'.run c exps len rs sched).arr
        ((s'.run c exps len rs sched).pc i) := by
    intro sched
    induction sched with
    | nil => exact fun s' _ h2 h3 => ⟨h2, h3⟩
    | cons k sched ih =>
      intro s' h1 h2 h3
      obtain ⟨h4, h5, h6⟩ := mul_inv hlen hag h1 h2 h3 k
      exact ih _ h4 h5 h6
  obtain ⟨h1, h2⟩ := main sched s rfl rfl (fun i => by rw [hs i]; trivial)
  refine ⟨by unfold sharedMono; rw [h1], fun i res h => ?_⟩
  have := h2 i
  rw [h] at this
  exact this

/-- Steps a goroutine still needs. -/
def MulPC.todo (n : ℕ) : MulPC R → ℕ
  | .start => 2 * n + 3
  | .writing k => (n - k) + n + 2
  | .reading k _ => (n - k) + 1
  | .own _ => 1
  | .done _ => 0

theorem MulState.step_todo (c : R) (exps : List Int) (len : ℕ) (rs : ℕ → Mono R) (s : MulState R) (k : ℕ) :
    (∀ i, i ≠ k → (s.step c exps len rs k).pc i = s.pc i) ∧
    (((s.step c exps len rs k).pc k).todo (len + (rs k).vars.length) = 0 ∨
      ((s.step c exps len rs k).pc k).todo (len + (rs k).vars.length) <
        (s.pc k).todo (len + (rs k).vars.length)) := by
  unfold MulState.step
  cases hpc : s.pc k with
  | start =>
    simp only
    split
    · exact ⟨fun i h => if_neg h, .inr (by simp only [if_true, MulPC.todo]; omega)⟩
    · exact ⟨fun i h => if_neg h, .inr (by simp only [if_true, MulPC.todo]; omega)⟩
  | writing n =>
    simp only
    cases hv : (rs k).vars[n]? with
    | none => exact ⟨fun i h => if_neg h, .inr (by simp only [if_true, MulPC.todo]; omega)⟩
    | some v =>
      have := (List.getElem?_eq_some_iff.mp hv).1
      exact ⟨fun i h => if_neg h, .inr (by simp only [if_true, MulPC.todo]; omega)⟩
  | reading n out =>
    simp only
    split
    · split
      · exact ⟨fun i h => if_neg h, .inr (by simp only [if_true, MulPC.todo]; omega)⟩
      · exact ⟨fun i h => if_neg h, .inl (by simp only [if_true, MulPC.todo])⟩
    · exact ⟨fun i h => if_neg h, .inl (by simp only [if_true, MulPC.todo])⟩
  | own vs => exact ⟨fun i h => if_neg h, .inl (by simp only [if_true, MulPC.todo])⟩
  | done res => exact ⟨fun i h => if_neg h, .inl (by simp only [if_true, MulPC.todo])⟩

/-- C44: a goroutine that is scheduled often enough finishes. -/
theorem shared_multiply_finishes {c : R} {exps : List Int} {len : ℕ} {rs : ℕ → Mono R} {s : MulState R}
    {i : ℕ} (hs : s.pc i = .start) {sched : List ℕ}
    (hc : 2 * (len + (rs i).vars.length) + 3 ≤ sched.count i) :
    ∃ res, (s.run c exps len rs sched).pc i = .done res := by
  have main : ∀ (sched : List ℕ) (s : MulState R),
      (s.pc i).todo (len + (rs i).vars.length) ≤ sched.count i →
      ((s.run c exps len rs sched).pc i).todo (len + (rs i).vars.length) = 0 := by
    intro sched
    induction sched with
    | nil => exact fun s h => Nat.le_zero.mp h
    | cons k sched ih =>
      intro s h
      refine ih (s.step c exps len rs k) ?_
      obtain ⟨h1, h2⟩ := s.step_todo c exps len rs k
      by_cases hk : i = k
      · subst hk
        rw [List.count_cons_self] at h
        omega
      · rw [h1 i hk]
        rwa [List.count_cons_of_ne (Ne.symm hk)] at h
  have h1 := main sched s (by rw [hs]; exact hc)
  cases hp : (s.run c exps len rs sched).pc i with
  | done res => exact ⟨res, rfl⟩
  | _ => rw [hp] at h1; simp [MulPC.todo] at h1

/-- C44 without spare capacity: any factors. -/
theorem shared_multiply_full_partial {c : R} {exps : List Int} {rs : ℕ → Mono R} {s : MulState R}
    (hs : ∀ i, s.pc i = .start) (sched : List ℕ) {i : ℕ} {res : Go (Mono R)}
    (hd : (s.run c exps s.arr.length rs sched).pc i = .done res) :
    res = (Mono.mk c exps s.arr).mulMono (rs i) := by
  have := (shared_multiply_partial (c := c) (exps := exps) (len := s.arr.length) (rs := rs) le_rfl
    (fun i j hi _ p v w hv => by
      have h1 : s.arr.length + (rs i).vars.length ≤ s.arr.length := hi
      have h2 := (List.getElem?_eq_some_iff.mp hv).1
      omega) hs sched).2 i res hd
  rw [this]
  unfold sharedMono
  rw [List.take_length]

/-- A goroutine alone, with any capacity. -/
theorem shared_multiply_alone {c : R} {exps : List Int} {len : ℕ} {r : Mono R}
    {s : MulState R} (hlen : len ≤ s.arr.length) (hs : ∀ i, s.pc i = .start) (n : ℕ) {res : Go (Mono R)}
    (hd : (s.run c exps len (fun _ => r) (List.replicate n 0)).pc 0 = .done res) :
    res = (sharedMono c exps len s.arr).mulMono r :=
  (shared_multiply_partial (rs := fun _ => r) hlen (fun i j _ _ p v w hv hw => by
    rw [hv] at hw
    exact Option.some.inj hw) hs _).2 0 res hd

/-! ## Counterexample -/

/-- `x*y*z` in an array of capacity four, which is what `append` allocates for the third element. -/
def wShared : MulState ℚ := ⟨[wx, wy, wz, wv 9], fun _ => .start⟩

/-- Goroutine `0` multiplies by `x_3`, the others by `x_4`. -/
def wFactors (i : ℕ) : Mono ℚ := if i = 0 then wm1 1 3 1 else wm1 1 4 1

/-- C44 is false: goroutine `0` appends `x_3`, goroutine `1` overwrites it with `x_4`, and goroutine `0`
then does not find `x_3` among the variables and panics with the index `-1`. -/
theorem shared_multiply_false :
    (wShared.run 1 [1, 1, 1] 3 wFactors ([0, 0, 1, 1] ++ List.replicate 6 0)).pc 0 =
      .done (.error .index) ∧
    (sharedMono 1 [1, 1, 1] 3 wShared.arr).mulMono (wFactors 0) =
      .ok ⟨1, [1, 1, 1, 1], [wx, wy, wz, wv 3]⟩ := by
  constructor <;> decide +kernel

/-- The factors put different variables at the same place. -/
example : ¬ Agree 3 4 wFactors := by
  intro h
  have := h 0 1 (by decide) (by decide) 0 (wv 3) (wv 4) rfl rfl
  revert this
  decide

/-! ## The hypotheses can be met -/

/-- Two goroutines, one with a factor that fits and one with a factor that does not. -/
def wFactors2 (i : ℕ) : Mono ℚ := if i = 0 then wm1 1 3 1 else wm2 1 4 5 1 2

theorem wFactors2_agree : Agree 3 4 wFactors2 := by
  intro i j hi hj p v w hv hw
  have key : ∀ i, Room 3 4 (wFactors2 i) → i = 0 := by
    intro i hi
    by_contra h
    unfold wFactors2 at hi
    rw [if_neg h] at hi
    exact absurd hi (by decide)
  rw [key i hi] at hv
  rw [key j hj, hv] at hw
  exact Option.some.inj hw

example (sched : List ℕ) (res : Go (Mono ℚ))
    (h : (wShared.run 1 [1, 1, 1] 3 wFactors2 sched).pc 1 = .done res) :
    res = .ok ⟨1, [1, 1, 1, 1, 2], [wx, wy, wz, wv 4, wv 5]⟩ := by
  rw [(shared_multiply_partial (s := wShared) (by decide) wFactors2_agree (fun _ => rfl) sched).2 1 res h]
  decide +kernel

example : ∃ res, (wShared.run 1 [1, 1, 1] 3 wFactors2
    ((List.replicate 13 [0, 1]).flatten)).pc 1 = .done res :=
  shared_multiply_finishes rfl (by decide)

end Verif
