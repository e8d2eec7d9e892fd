import Verif.Model.Env
import Verif.Props.ArithNeg
import Verif.Props.Vars
import Mathlib.Data.List.Perm.Basic

/-!
# C21, C22, C23: environments

C21: a new variable gets the number of tracked variables as ID.  It is fresh exactly if no tracked
variable has that ID, which is the case in all histories that track only variables with IDs up to that
number.  C22: false, with the exact consequence of two goroutines reading the same length, and true
for schedules that run one creation at a time.  C23: false for the first variables of any two
environments; arithmetic identifies variables exactly by ID.
-/

set_option linter.unusedSectionVars false

namespace Verif

variable {R : Type}

/-- The IDs are `0, 1, ..., n-1` in some order. -/
def Numbered (l : List (Var R)) : Prop := (l.map (·.id)).Perm (List.range l.length)

theorem Numbered.nil : Numbered ([] : List (Var R)) := List.Perm.refl _

theorem Numbered.mem {l : List (Var R)} (h : Numbered l) {i : ℕ} : i ∈ l.map (·.id) ↔ i < l.length := by
  rw [h.mem_iff, List.mem_range]

theorem Numbered.nodup {l : List (Var R)} (h : Numbered l) : (l.map (·.id)).Nodup :=
  h.nodup_iff.mpr List.nodup_range

theorem Numbered.append {l : List (Var R)} (h : Numbered l) {vs : List (Var R)}
    (hv : vs.map (·.id) = List.range' l.length vs.length) : Numbered (l ++ vs) := by
  unfold Numbered
  rw [List.map_append, List.length_append, hv, List.range_add, ← List.range'_eq_map_range]
  exact h.append_right _

theorem any_id_iff {l : List (Var R)} {i : ℕ} :
    l.any (fun x => x.id == i) = true ↔ i ∈ l.map (·.id) := by
  simp only [List.any_eq_true, beq_iff_eq, List.mem_map]

/-! ## TrackVariable -/

/-- C21: `TrackVariable` never stores two variables with the same ID and never drops one. -/
theorem track_spec {w : Envs R} {e : ℕ} {v : Var R} :
    (v.id ∈ (w e).map (·.id) → trackVariable e v w = (false, w)) ∧
    (v.id ∉ (w e).map (·.id) → trackVariable e v w = (true, w.set e (w e ++ [v]))) := by
  unfold trackVariable
  constructor
  · intro h
    rw [if_pos (any_id_iff.mpr h)]
  · intro h
    rw [if_neg (fun h' => h (any_id_iff.mp h'))]

theorem Envs.set_self (w : Envs R) (e : ℕ) (l : List (Var R)) : w.set e l e = l := if_pos rfl

theorem Envs.set_ne (w : Envs R) {e e' : ℕ} (l : List (Var R)) (h : e' ≠ e) : w.set e l e' = w e' :=
  if_neg h

theorem Envs.set_set (w : Envs R) (e : ℕ) (l l' : List (Var R)) : (w.set e l).set e l' = w.set e l' := by
  funext e'
  unfold Envs.set
  split <;> rfl

theorem Envs.set_same (w : Envs R) (e : ℕ) : w.set e (w e) = w := by
  funext e'
  unfold Envs.set
  split
  · next h => rw [h]
  · rfl

section Struct
variable [GoNum R]

theorem newVarValue_id (b : Bool) (n e : ℕ) : (newVarValue b n e : Var R).id = n := by
  cases b <;> rfl

theorem newVarValue_env (b : Bool) (n e : ℕ) : (newVarValue b n e : Var R).env = e := by
  cases b <;> rfl

/-- C21, one creation, exact: the ID is the number of tracked variables, so the new variable is fresh
iff no tracked variable has that ID; it is tracked afterwards iff it is fresh. -/
theorem newVar_spec (b : Bool) (e : ℕ) (w : Envs R) :
    (newVar b e w).1.id = (w e).length ∧ (newVar b e w).1.env = e ∧
    ((w e).length ∉ (w e).map (·.id) → (newVar b e w).2 = w.set e (w e ++ [(newVar b e w).1])) ∧
    ((w e).length ∈ (w e).map (·.id) → (newVar b e w).2 = w) := by
  refine ⟨newVarValue_id _ _ _, newVarValue_env _ _ _, fun h => ?_, fun h => ?_⟩
  · show (trackVariable _ _ _).2 = _
    rw [track_spec.2 (by rw [newVarValue_id]; exact h)]
    rfl
  · show (trackVariable _ _ _).2 = _
    rw [track_spec.1 (by rw [newVarValue_id]; exact h)]

/-- C21: once the next ID is taken, every later creation in that environment returns the same ID, and
none of these variables is tracked. -/
theorem newVars_stuck {e : ℕ} {w : Envs R} (h : (w e).length ∈ (w e).map (·.id)) (n : ℕ) :
    (newVars n e w).2 = w ∧ (newVars n e w).1 = List.replicate n (newVarValue false (w e).length e) := by
  induction n with
  | zero => exact ⟨rfl, rfl⟩
  | succ n ih =>
    have h1 := (newVar_spec false e w).2.2.2 h
    unfold newVars
    simp only [h1]
    exact ⟨ih.1, by rw [ih.2, List.replicate_succ]; rfl⟩

/-- What the creation of several variables does in an environment with IDs `0, ..., n-1`. -/
structure Creates (e : ℕ) (w : Envs R) (vs : List (Var R)) (w' : Envs R) : Prop where
  env : ∀ v ∈ vs, v.env = e
  ids : vs.map (·.id) = List.range' (w e).length vs.length
  state : w' = w.set e (w e ++ vs)

theorem Creates.nil (e : ℕ) (w : Envs R) : Creates e w [] w :=
  ⟨by simp, rfl, by rw [List.append_nil, Envs.set_same]⟩

theorem Creates.numbered {e : ℕ} {w w' : Envs R} {vs : List (Var R)} (h : Creates e w vs w')
    (hw : Numbered (w e)) : Numbered (w' e) := by
  rw [h.state, Envs.set_self]
  exact hw.append h.ids

theorem Creates.append {e : ℕ} {w w1 w2 : Envs R} {vs us : List (Var R)} (h : Creates e w vs w1)
    (h' : Creates e w1 us w2) : Creates e w (vs ++ us) w2 := by
  refine ⟨fun v hv => (List.mem_append.mp hv).elim (h.env v) (h'.env v), ?_, ?_⟩
  · rw [List.map_append, h.ids, h'.ids, h.state, Envs.set_self, List.length_append, List.length_append,
      List.range'_append_1]
  · rw [h'.state, h.state, Envs.set_set, Envs.set_self, List.append_assoc]

theorem newVar_creates (b : Bool) {e : ℕ} {w : Envs R} (hw : Numbered (w e)) :
    Creates e w [(newVar b e w).1] (newVar b e w).2 := by
  obtain ⟨h1, h2, h3, -⟩ := newVar_spec b e w
  refine ⟨by simpa using h2, by simpa using h1, h3 ?_⟩
  rw [hw.mem]
  omega

theorem newVars_creates (n : ℕ) {e : ℕ} {w : Envs R} (hw : Numbered (w e)) :
    Creates e w (newVars n e w).1 (newVars n e w).2 ∧ (newVars n e w).1.length = n := by
  induction n generalizing w with
  | zero => exact ⟨Creates.nil e w, rfl⟩
  | succ n ih =>
    have h1 := newVar_creates false hw
    obtain ⟨h2, h3⟩ := ih (h1.numbered hw)
    exact ⟨h1.append h2, by show List.length (_ :: _) = _; rw [List.length_cons, h3]⟩

theorem newRows_creates (r c : ℕ) {e : ℕ} {w : Envs R} (hw : Numbered (w e)) :
    Creates e w (newRows r c e w).1.flatten (newRows r c e w).2 ∧ (newRows r c e w).1.length = r ∧
      ∀ row ∈ (newRows r c e w).1, row.length = c := by
  induction r generalizing w with
  | zero => exact ⟨Creates.nil e w, rfl, fun row h => (by cases h)⟩
  | succ r ih =>
    obtain ⟨h1, h2⟩ := newVars_creates c hw
    obtain ⟨h3, h4, h5⟩ := ih (h1.numbered hw)
    refine ⟨h1.append h3, by show List.length (_ :: _) = _; rw [List.length_cons, h4], ?_⟩
    intro row hrow
    rcases List.mem_cons.mp hrow with rfl | h
    · exact h2
    · exact h5 row h

/-- The environment a call works on. -/
def EnvOp.target : EnvOp R → ℕ
  | .newContinuous envs => envArg envs
  | .newBinary envs => envArg envs
  | .newVector _ envs => envArg envs
  | .newMatrix _ _ envs => envArg envs
  | .track e _ => e

/-- Tracking is fine if the ID is tracked already (then nothing happens) or is the next one.  Creation
calls are always fine. -/
def EnvOp.Fine (w : Envs R) : EnvOp R → Prop
  | .track e v => v.id ∈ (w e).map (·.id) ∨ v.id = (w e).length
  | _ => True

/-- How many variables a call that does not panic creates. -/
def EnvOp.count : EnvOp R → ℕ
  | .newContinuous _ => 1
  | .newBinary _ => 1
  | .newVector n _ => n.toNat
  | .newMatrix r c _ => r.toNat * c.toNat
  | .track _ _ => 0

theorem call_creates {w : Envs R} (hw : ∀ e, Numbered (w e)) {o : EnvOp R}
    {r : List (Var R) × Envs R} (hr : o.call w = .ok r) :
    ((∃ v, o = .track o.target v) ∨ Creates o.target w r.1 r.2) ∧ r.1.length = o.count := by
  cases o with
  | newContinuous envs =>
    simp only [EnvOp.call, Except.ok.injEq] at hr
    subst hr
    exact ⟨.inr (newVar_creates false (hw _)), rfl⟩
  | newBinary envs =>
    simp only [EnvOp.call, Except.ok.injEq] at hr
    subst hr
    exact ⟨.inr (newVar_creates true (hw _)), rfl⟩
  | newVector n envs =>
    simp only [EnvOp.call, Except.ok.injEq] at hr
    subst hr
    exact ⟨.inr (newVars_creates _ (hw _)).1, (newVars_creates _ (hw _)).2⟩
  | newMatrix rr c envs =>
    simp only [EnvOp.call] at hr
    split at hr
    · cases hr
    · split at hr
      · cases hr
      · simp only [Except.ok.injEq] at hr
        subst hr
        obtain ⟨h1, h2, h3⟩ := newRows_creates (R := R) rr.toNat c.toNat (hw (envArg envs))
        refine ⟨.inr h1, ?_⟩
        show List.length (List.flatten _) = rr.toNat * c.toNat
        rw [List.length_flatten, List.map_congr_left h3, List.map_const', List.sum_replicate, h2,
          smul_eq_mul]
  | track e v =>
    simp only [EnvOp.call, Except.ok.injEq] at hr
    subst hr
    exact ⟨.inl ⟨v, rfl⟩, rfl⟩

theorem call_numbered {w : Envs R} (hw : ∀ e, Numbered (w e)) {o : EnvOp R} (ho : o.Fine w)
    {r : List (Var R) × Envs R} (hr : o.call w = .ok r) : ∀ e, Numbered (r.2 e) := by
  rcases (call_creates hw hr).1 with ⟨v, hv⟩ | h
  · rw [hv] at hr ho
    simp only [EnvOp.call, Except.ok.injEq] at hr
    subst hr
    intro e
    by_cases hm : v.id ∈ (w o.target).map (·.id)
    · rw [track_spec.1 hm]
      exact hw e
    · rw [track_spec.2 hm]
      dsimp only
      by_cases he : e = o.target
      · subst he
        rw [Envs.set_self]
        refine (hw _).append ?_
        have h1 : v.id = (w o.target).length := Or.resolve_left ho hm
        simp only [List.map_cons, List.map_nil, List.length_singleton, List.range'_one, h1]
      · rw [Envs.set_ne _ _ he]
        exact hw e
  · intro e
    by_cases he : e = o.target
    · subst he
      exact h.numbered (hw _)
    · rw [h.state, Envs.set_ne _ _ he]
      exact hw e

/-- No call drops or changes a tracked variable. -/
theorem call_prefix {w : Envs R} {o : EnvOp R} {r : List (Var R) × Envs R} (hr : o.call w = .ok r)
    (e : ℕ) : w e <+: r.2 e := by
  have htrack : ∀ (e' : ℕ) (v : Var R) (w : Envs R), w e <+: (trackVariable e' v w).2 e := by
    intro e' v w
    by_cases hm : v.id ∈ (w e').map (·.id)
    · rw [track_spec.1 hm]
    · rw [track_spec.2 hm]
      dsimp only
      by_cases he : e = e'
      · subst he
        rw [Envs.set_self]
        exact List.prefix_append _ _
      · rw [Envs.set_ne _ _ he]
  have hvars : ∀ (n e' : ℕ) (w : Envs R), w e <+: (newVars n e' w).2 e := by
    intro n e'
    induction n with
    | zero => exact fun w => List.prefix_rfl
    | succ n ih => exact fun w => (htrack _ _ _).trans (ih _)
  have hrows : ∀ (n c e' : ℕ) (w : Envs R), w e <+: (newRows n c e' w).2 e := by
    intro n c e'
    induction n with
    | zero => exact fun w => List.prefix_rfl
    | succ n ih => exact fun w => (hvars _ _ _).trans (ih _)
  cases o with
  | newContinuous envs =>
    simp only [EnvOp.call, Except.ok.injEq] at hr
    subst hr
    exact htrack _ _ _
  | newBinary envs =>
    simp only [EnvOp.call, Except.ok.injEq] at hr
    subst hr
    exact htrack _ _ _
  | newVector n envs =>
    simp only [EnvOp.call, Except.ok.injEq] at hr
    subst hr
    exact hvars _ _ _
  | newMatrix rr c envs =>
    simp only [EnvOp.call] at hr
    split at hr
    · cases hr
    · split at hr
      · cases hr
      · simp only [Except.ok.injEq] at hr
        subst hr
        exact hrows _ _ _ _
  | track e v =>
    simp only [EnvOp.call, Except.ok.injEq] at hr
    subst hr
    exact htrack _ _ _

/-- C21 for all histories, even those that track foreign variables: no environment ever holds two
variables with the same ID. -/
theorem history_nodup (os : List (EnvOp R)) {w : Envs R} (hw : ∀ e, ((w e).map (·.id)).Nodup) :
    ∀ e, (((EnvOp.run w os).2 e).map (·.id)).Nodup := by
  have htrack : ∀ (e' : ℕ) (v : Var R) (w : Envs R), (∀ e, ((w e).map (·.id)).Nodup) →
      ∀ e, (((trackVariable e' v w).2 e).map (·.id)).Nodup := by
    intro e' v w hw e
    by_cases hm : v.id ∈ (w e').map (·.id)
    · rw [track_spec.1 hm]
      exact hw e
    · rw [track_spec.2 hm]
      dsimp only
      by_cases he : e = e'
      · subst he
        rw [Envs.set_self, List.map_append]
        exact (hw e).append (List.nodup_singleton _) (by simpa [List.disjoint_singleton] using hm)
      · rw [Envs.set_ne _ _ he]
        exact hw e
  have hvars : ∀ (n e' : ℕ) (w : Envs R), (∀ e, ((w e).map (·.id)).Nodup) →
      ∀ e, (((newVars n e' w).2 e).map (·.id)).Nodup := by
    intro n e'
    induction n with
    | zero => exact fun w hw => hw
    | succ n ih => exact fun w hw => ih _ (htrack _ _ _ hw)
  have hrows : ∀ (n c e' : ℕ) (w : Envs R), (∀ e, ((w e).map (·.id)).Nodup) →
      ∀ e, (((newRows n c e' w).2 e).map (·.id)).Nodup := by
    intro n c e'
    induction n with
    | zero => exact fun w hw => hw
    | succ n ih => exact fun w hw => ih _ (hvars _ _ _ hw)
  induction os generalizing w with
  | nil => exact hw
  | cons o os ih =>
    unfold EnvOp.run
    cases hr : o.call w with
    | error err => exact ih hw
    | ok r =>
      refine ih (w := r.2) ?_
      cases o with
      | newContinuous envs =>
        simp only [EnvOp.call, Except.ok.injEq] at hr
        subst hr
        exact htrack _ _ _ hw
      | newBinary envs =>
        simp only [EnvOp.call, Except.ok.injEq] at hr
        subst hr
        exact htrack _ _ _ hw
      | newVector n envs =>
        simp only [EnvOp.call, Except.ok.injEq] at hr
        subst hr
        exact hvars _ _ _ hw
      | newMatrix rr c envs =>
        simp only [EnvOp.call] at hr
        split at hr
        · cases hr
        · split at hr
          · cases hr
          · simp only [Except.ok.injEq] at hr
            subst hr
            exact hrows _ _ _ _ hw
      | track e v =>
        simp only [EnvOp.call, Except.ok.injEq] at hr
        subst hr
        exact htrack _ _ _ hw

/-- Every tracking call of the history is fine when it is made. -/
def FineRun (w : Envs R) (os : List (EnvOp R)) : Prop :=
  ∀ pre o post, os = pre ++ o :: post → o.Fine (EnvOp.run w pre).2

theorem run_cons_ok {w : Envs R} {o : EnvOp R} {os : List (EnvOp R)} {r : List (Var R) × Envs R}
    (hr : o.call w = .ok r) :
    EnvOp.run w (o :: os) = (r.1 ++ (EnvOp.run r.2 os).1, (EnvOp.run r.2 os).2) := by
  conv_lhs => unfold EnvOp.run
  rw [hr]

theorem run_cons_err {w : Envs R} {o : EnvOp R} {os : List (EnvOp R)} {e : Err}
    (hr : o.call w = .error e) : EnvOp.run w (o :: os) = EnvOp.run w os := by
  conv_lhs => unfold EnvOp.run
  rw [hr]

theorem run_prefix (os : List (EnvOp R)) (w : Envs R) (e : ℕ) : w e <+: (EnvOp.run w os).2 e := by
  induction os generalizing w with
  | nil => exact List.prefix_rfl
  | cons o os ih =>
    cases hr : o.call w with
    | error err => rw [run_cons_err hr]; exact ih w
    | ok r => rw [run_cons_ok hr]; exact (call_prefix hr e).trans (ih r.2)

theorem run_fine {os : List (EnvOp R)} {w : Envs R} (hw : ∀ e, Numbered (w e)) (hf : FineRun w os) :
    (∀ e, Numbered ((EnvOp.run w os).2 e)) ∧
      ∀ v ∈ (EnvOp.run w os).1, v ∈ (EnvOp.run w os).2 v.env ∧ v.id ∉ (w v.env).map (·.id) := by
  induction os generalizing w with
  | nil => exact ⟨hw, fun v hv => (by cases hv)⟩
  | cons o os ih =>
    have h0 : o.Fine w := hf [] o os rfl
    cases hr : o.call w with
    | error err =>
      rw [run_cons_err hr]
      refine ih hw fun pre o' post h => ?_
      have := hf (o :: pre) o' post (by rw [h]; rfl)
      rwa [run_cons_err hr] at this
    | ok r =>
      rw [run_cons_ok hr]
      obtain ⟨h1, h2⟩ := ih (w := r.2) (call_numbered hw h0 hr) fun pre o' post h => by
        have := hf (o :: pre) o' post (by rw [h]; rfl)
        rwa [run_cons_ok hr] at this
      refine ⟨h1, fun v hv => ?_⟩
      rcases List.mem_append.mp hv with hv | hv
      · rcases (call_creates hw hr).1 with ⟨u, hu⟩ | h
        · rw [hu] at hr
          simp only [EnvOp.call, Except.ok.injEq] at hr
          subst hr
          cases hv
        · have henv := h.env v hv
          have hin : v ∈ r.2 v.env := by
            rw [henv, h.state, Envs.set_self]
            exact List.mem_append_right _ hv
          refine ⟨(run_prefix os r.2 v.env).subset hin, ?_⟩
          rw [henv, (hw _).mem]
          have : v.id ∈ r.1.map (·.id) := List.mem_map_of_mem hv
          rw [h.ids, List.mem_range'_1] at this
          omega
      · refine ⟨(h2 v hv).1, fun hm => (h2 v hv).2 ?_⟩
        exact ((call_prefix hr v.env).map _).subset hm

/-- C21 for all histories in which every tracked variable has an ID that is already tracked or is the
next one, on any number of environments: every created variable has an ID different from all variables
tracked by or created in its environment before, the variables of one call have different IDs, and the
environment tracks them afterwards.  Missing: tracking of variables with other IDs
(`newVar_fresh_false`). -/
theorem history_fresh_partial {os : List (EnvOp R)} {w : Envs R} (hw : ∀ e, Numbered (w e))
    (hf : FineRun w os) {pre post : List (EnvOp R)} {o : EnvOp R} (hos : os = pre ++ o :: post)
    {r : List (Var R) × Envs R} (hr : o.call (EnvOp.run w pre).2 = .ok r) :
    r.1.length = o.count ∧ (r.1.map (·.id)).Nodup ∧
    ∀ v ∈ r.1, v.env = o.target ∧ v.id ∉ ((EnvOp.run w pre).2 v.env).map (·.id) ∧
      (∀ u ∈ (EnvOp.run w pre).1, u.env = v.env → u.id ≠ v.id) ∧ v ∈ r.2 v.env := by
  obtain ⟨h1, h2⟩ := run_fine hw (os := pre) fun pre' o' post' h =>
    hf pre' o' (post' ++ o :: post) (by rw [hos, h]; simp)
  obtain ⟨h3, h4⟩ := call_creates h1 hr
  refine ⟨h4, ?_, ?_⟩
  · rcases h3 with ⟨u, hu⟩ | h3
    · rw [hu] at hr
      simp only [EnvOp.call, Except.ok.injEq] at hr
      subst hr
      exact List.nodup_nil
    · rw [h3.ids]
      exact List.nodup_range'
  · intro v hv
    rcases h3 with ⟨u, hu⟩ | h3
    · rw [hu] at hr
      simp only [EnvOp.call, Except.ok.injEq] at hr
      subst hr
      cases hv
    · have henv := h3.env v hv
      have hnew : v.id ∉ ((EnvOp.run w pre).2 v.env).map (·.id) := by
        rw [henv, (h1 _).mem]
        have : v.id ∈ r.1.map (·.id) := List.mem_map_of_mem hv
        rw [h3.ids, List.mem_range'_1] at this
        omega
      refine ⟨henv, hnew, fun u hu he h => hnew ?_, ?_⟩
      · rw [← h, ← he]
        exact List.mem_map_of_mem (h2 u hu).1
      · rw [henv, h3.state, Envs.set_self]
        exact List.mem_append_right _ hv

/-- C21, whole histories: all variables created in an environment have different IDs. -/
theorem history_distinct_partial {os : List (EnvOp R)} {w : Envs R} (hw : ∀ e, Numbered (w e))
    (hf : FineRun w os) :
    (EnvOp.run w os).1.Pairwise (fun u v => u.env = v.env → u.id ≠ v.id) := by
  induction os generalizing w with
  | nil => exact List.Pairwise.nil
  | cons o os ih =>
    have h0 : o.Fine w := hf [] o os rfl
    cases hr : o.call w with
    | error err =>
      rw [run_cons_err hr]
      refine ih hw fun pre o' post h => ?_
      have := hf (o :: pre) o' post (by rw [h]; rfl)
      rwa [run_cons_err hr] at this
    | ok r =>
      have hw' := call_numbered hw h0 hr
      have hf' : FineRun r.2 os := fun pre o' post h => by
        have := hf (o :: pre) o' post (by rw [h]; rfl)
        rwa [run_cons_ok hr] at this
      rw [run_cons_ok hr, List.pairwise_append]
      obtain ⟨-, h2, h3⟩ := history_fresh_partial hw hf (pre := []) rfl hr
      refine ⟨?_, ih hw' hf', ?_⟩
      · have := List.pairwise_map.mp h2
        exact List.Pairwise.imp (fun {a b} h (_ : a.env = b.env) => h) this
      · intro u hu v hv he h
        refine ((run_fine hw' hf').2 v hv).2 ?_
        rw [← h, ← he]
        exact List.mem_map_of_mem (h3 u hu).2.2.2

/-- Histories that only create variables are fine. -/
theorem fineRun_of_create {os : List (EnvOp R)} {w : Envs R}
    (h : ∀ o ∈ os, ∀ e v, o ≠ .track e v) : FineRun w os := by
  intro pre o post hos
  have := h o (by rw [hos]; simp)
  cases o with
  | track e v => exact absurd rfl (this e v)
  | _ => trivial

end Struct

section Value
variable [Field R] [LinearOrder R] [IsStrictOrderedRing R]

/-- Created variables pass `Check`. -/
theorem newVarValue_ok (b : Bool) (n e : ℕ) : (newVarValue b n e : Var R).OK := by
  cases b
  · show decide (((10 ^ 100 : ℤ) : R) ≤ -((10 ^ 100 : ℤ) : R)) = false
    rw [decide_eq_false_iff_not, not_le]
    have : (0 : R) < ((10 ^ 100 : ℤ) : R) := by
      rw [Int.cast_pos]
      positivity
    linarith
  · show decide ((1 : R) ≤ 0) = false
    simp

/-! ## C23 -/

omit [IsStrictOrderedRing R] in
theorem var_canon_deg {x : Var R} (hx : x.OK) : (Scalar.var x).Canon ∧ (Scalar.var x).TermsIn (degLE 2) :=
  ⟨hx, by
    show ((Finsupp.single x.id 1).sum fun _ e => e) ≤ 2
    rw [Finsupp.sum_single_index rfl]
    omega⟩

/-- C23, exact: the sum of two variables has two variables iff their IDs differ; the environments do not
matter. -/
theorem plus_variables_iff {x y : Var R} (hx : x.OK) (hy : y.OK) :
    ∃ r, (Scalar.var x).plus (.var y) = .ok r ∧ (r.variables.length = 2 ↔ x.id ≠ y.id) ∧
      (r.variables.length = 1 ↔ x.id = y.id) := by
  obtain ⟨r, h1, hc, -, hd⟩ := plus_denotes_sum_deg_two (var_canon_deg hx).1 (var_canon_deg hy).1
    (var_canon_deg hx).2 (var_canon_deg hy).2
  obtain ⟨r', h1', -, hm⟩ := plus_total (var_canon_deg hx).1 (var_canon_deg hy).1
  rw [h1, Except.ok.injEq] at h1'
  subst h1'
  obtain ⟨hn, hv, -⟩ := variables_nodup hc
  have hsub : ∀ i ∈ r.variables.map (·.id), i = x.id ∨ i = y.id := by
    intro i hi
    obtain ⟨v, hvm, rfl⟩ := List.mem_map.mp hi
    rcases hm v (hv v hvm) with h | h
    · exact Or.inl (congrArg _ h)
    · exact Or.inr (congrArg _ h)
  have hin : ∀ i, i = x.id ∨ i = y.id → i ∈ r.variables.map (·.id) := by
    intro i hi
    refine variables_complete hc ?_
    rw [hd, MvPolynomial.mem_vars_iff_mem_support]
    refine ⟨Finsupp.single i 1, ?_, by simp⟩
    rw [MvPolynomial.mem_support_iff]
    simp only [Scalar.den, MvPolynomial.coeff_add, MvPolynomial.coeff_X]
    have : ∀ a b : ℕ, (Finsupp.single a 1 = Finsupp.single b 1) ↔ a = b := fun a b =>
      Finsupp.single_left_inj one_ne_zero
    simp only [this]
    rcases hi with rfl | rfl
    · by_cases h : y.id = x.id <;> simp [h]
    · by_cases h : x.id = y.id <;> simp [h]
  by_cases he : x.id = y.id
  · have hp : (r.variables.map (·.id)).Perm [x.id] := by
      rw [List.perm_ext_iff_of_nodup hn (List.nodup_singleton _)]
      intro i
      rw [List.mem_singleton]
      exact ⟨fun h => (hsub i h).elim id (fun h => h.trans he.symm), fun h => hin i (Or.inl h)⟩
    have hl := hp.length_eq
    rw [List.length_map, List.length_singleton] at hl
    exact ⟨r, h1, by rw [hl]; simp [he], by rw [hl]; simp [he]⟩
  · have hp : (r.variables.map (·.id)).Perm [x.id, y.id] := by
      rw [List.perm_ext_iff_of_nodup hn (by simpa using he)]
      intro i
      simp only [List.mem_cons, List.not_mem_nil, or_false]
      exact ⟨hsub i, hin i⟩
    have hl := hp.length_eq
    rw [List.length_map] at hl
    exact ⟨r, h1, by rw [hl]; simp [he], by rw [hl]; simp [he]⟩

/-- C23, exact: the difference of two variables is zero iff their IDs are equal. -/
theorem minus_zero_iff {x y : Var R} (hx : x.OK) (hy : y.OK) :
    ∃ r, (Scalar.var x).minus (.var y) = .ok r ∧ (r.den = 0 ↔ x.id = y.id) := by
  obtain ⟨r, h1, hc, -, hd⟩ := minus_denotes_difference_deg_two (var_canon_deg hx).1 (var_canon_deg hy).1
    (var_canon_deg hx).2 (var_canon_deg hy).2
  refine ⟨r, h1, ?_⟩
  rw [hd]
  simp only [Scalar.den, sub_eq_zero]
  exact ⟨fun h => MvPolynomial.X_injective h, fun h => by rw [h]⟩

/-- C23 fails for every pair of environments: their first variables are different variables, but their
sum has one variable and their difference is zero. -/
theorem environments_identified {w : Envs R} {e1 e2 : ℕ} (he : e1 ≠ e2) (h1 : w e1 = [])
    (h2 : w e2 = []) (b1 b2 : Bool) :
    ∃ x y, x = (newVar b1 e1 w).1 ∧ y = (newVar b2 e2 (newVar b1 e1 w).2).1 ∧ x.env = e1 ∧ y.env = e2 ∧
      (∃ r, (Scalar.var x).plus (.var y) = .ok r ∧ r.variables.length = 1) ∧
      ∃ r, (Scalar.var x).minus (.var y) = .ok r ∧ r.den = 0 := by
  refine ⟨_, _, rfl, rfl, newVarValue_env _ _ _, newVarValue_env _ _ _, ?_⟩
  have hx : (newVar b1 e1 w).1.id = 0 := by
    rw [(newVar_spec b1 e1 w).1, h1]
    rfl
  have hy : (newVar b2 e2 (newVar b1 e1 w).2).1.id = 0 := by
    rw [(newVar_spec b2 e2 _).1, (newVar_spec b1 e1 w).2.2.1 (by rw [h1]; simp),
      Envs.set_ne _ _ he.symm, h2]
    rfl
  obtain ⟨r, h3, -, h4⟩ := plus_variables_iff (R := R) (x := (newVar b1 e1 w).1)
    (y := (newVar b2 e2 (newVar b1 e1 w).2).1) (newVarValue_ok _ _ _) (newVarValue_ok _ _ _)
  obtain ⟨r', h5, h6⟩ := minus_zero_iff (R := R) (x := (newVar b1 e1 w).1)
    (y := (newVar b2 e2 (newVar b1 e1 w).2).1) (newVarValue_ok _ _ _) (newVarValue_ok _ _ _)
  exact ⟨⟨r, h3, h4.mpr (hx.trans hy.symm)⟩, r', h5, h6.mpr (hx.trans hy.symm)⟩

/-- C23 for variables with different IDs, of whatever environments.  Missing: equal IDs
(`environments_identified`). -/
theorem different_ids_stay_distinct_partial {x y : Var R} (hx : x.OK) (hy : y.OK) (h : x.id ≠ y.id) :
    (∃ r, (Scalar.var x).plus (.var y) = .ok r ∧ r.variables.length = 2) ∧
      ∃ r, (Scalar.var x).minus (.var y) = .ok r ∧ r.den ≠ 0 := by
  obtain ⟨r, h1, h2, -⟩ := plus_variables_iff hx hy
  obtain ⟨r', h3, h4⟩ := minus_zero_iff hx hy
  exact ⟨⟨r, h1, h2.mpr h⟩, r', h3, fun h5 => h (h4.mp h5)⟩

end Value

/-! ## C22 -/

section Conc
variable [GoNum R]

theorem Conc.run_append (e : ℕ) (s : Conc R) (a b : List ℕ) :
    s.run e (a ++ b) = (s.run e a).run e b := List.foldl_append

/-- One creation without interruption. -/
theorem Conc.run_three (e : ℕ) {s : Conc R} {i : ℕ} (hp : s.pc i = .start) :
    s.run e [i, i, i] = ⟨if s.vars.any (fun x => x.id == s.vars.length) then s.vars
        else s.vars ++ [newVarValue false s.vars.length e], s.pc,
      s.log ++ [(i, newVarValue false s.vars.length e)]⟩ := by
  have h1 : s.step e i = ⟨s.vars, fun j => if j = i then .gotLen s.vars.length else s.pc j, s.log⟩ := by
    unfold Conc.step
    rw [hp]
  have h2 : (s.step e i).step e i = ⟨s.vars,
      fun j => if j = i then .gotVars s.vars.length s.vars else s.pc j, s.log⟩ := by
    rw [h1]
    unfold Conc.step
    simp only [if_true]
    congr 1
    funext j
    split <;> rfl
  show ((s.step e i).step e i).step e i = _
  rw [h2]
  unfold Conc.step
  simp only [if_true]
  congr 1
  funext j
  split
  · next h => rw [h, hp]
  · rfl

/-- C22 for schedules that run one creation at a time (as under a lock), for any number of goroutines
and creations: all returned variables have different IDs, and the environment tracks them.  Missing:
other schedules (`concurrent_false`). -/
theorem concurrent_serial_partial (e : ℕ) (is : List ℕ) {s : Conc R} (hp : ∀ i, s.pc i = .start)
    (hn : Numbered s.vars) (hl : s.log = []) :
    ∃ vs, (s.run e (is.flatMap fun i => [i, i, i])).log = is.zip vs ∧ vs.length = is.length ∧
      (vs.map (·.id)).Nodup ∧ (∀ v ∈ vs, v.id ∉ s.vars.map (·.id)) ∧
      (s.run e (is.flatMap fun i => [i, i, i])).vars = s.vars ++ vs := by
  have main : ∀ (is : List ℕ) (s : Conc R), (∀ i, s.pc i = .start) → Numbered s.vars →
      ∃ vs, (s.run e (is.flatMap fun i => [i, i, i])).log = s.log ++ is.zip vs ∧
        vs.length = is.length ∧ vs.map (·.id) = List.range' s.vars.length vs.length ∧
        (s.run e (is.flatMap fun i => [i, i, i])).vars = s.vars ++ vs := by
    intro is
    induction is with
    | nil => exact fun s _ _ => ⟨[], by simp [Conc.run], rfl, rfl, by simp [Conc.run]⟩
    | cons i is ih =>
      intro s hp hn
      rw [List.flatMap_cons, Conc.run_append, Conc.run_three e (hp i)]
      have hany : ¬ s.vars.any (fun x => x.id == s.vars.length) = true := by
        rw [any_id_iff, hn.mem]
        omega
      rw [if_neg hany]
      obtain ⟨vs, h1, h2, h3, h4⟩ := ih ⟨s.vars ++ [newVarValue false s.vars.length e], s.pc,
        s.log ++ [(i, newVarValue false s.vars.length e)]⟩ hp (hn.append (by
          simp [newVarValue_id]))
      refine ⟨newVarValue false s.vars.length e :: vs, ?_, by simp [h2], ?_, ?_⟩
      · rw [h1]
        simp
      · rw [List.map_cons, h3, newVarValue_id, List.length_cons, List.range'_succ]
        simp
      · rw [h4]
        simp
  obtain ⟨vs, h1, h2, h3, h4⟩ := main is s hp hn
  rw [hl, List.nil_append] at h1
  refine ⟨vs, h1, h2, by rw [h3]; exact List.nodup_range', fun v hv => ?_, h4⟩
  have : v.id ∈ vs.map (·.id) := List.mem_map_of_mem hv
  rw [h3, List.mem_range'_1] at this
  rw [hn.mem]
  omega

/-- The ID a goroutine that has read the length will return. -/
def PC.num : PC R → Option ℕ
  | .start => none
  | .gotLen n => some n
  | .gotVars n _ => some n

theorem Conc.step_other (e : ℕ) (s : Conc R) {i k : ℕ} (h : i ≠ k) : (s.step e k).pc i = s.pc i := by
  unfold Conc.step
  split <;> simp only [if_neg h]

theorem Conc.step_log (e : ℕ) (s : Conc R) (k : ℕ) :
    (s.step e k).log = s.log ∧ (s.pc k).num = none ∨
    (s.step e k).log = s.log ∧ ((s.step e k).pc k).num = (s.pc k).num ∨
    ∃ v, (s.step e k).log = s.log ++ [(k, v)] ∧ (s.pc k).num = some v.id := by
  unfold Conc.step
  cases h : s.pc k with
  | start => exact .inl ⟨rfl, rfl⟩
  | gotLen n => exact .inr (.inl ⟨rfl, by simp [PC.num]⟩)
  | gotVars n l => exact .inr (.inr ⟨_, rfl, by simp [PC.num, newVarValue_id]⟩)

/-- Whatever the other goroutines do, the next variable returned to a goroutine has the ID it read. -/
theorem concurrent_next (e : ℕ) (sched : List ℕ) {s : Conc R} {i n : ℕ} (h : (s.pc i).num = some n) :
    ∃ new, (s.run e sched).log = s.log ++ new ∧
      ∀ r, new.find? (fun r => r.1 == i) = some r → r.2.id = n := by
  induction sched generalizing s with
  | nil => exact ⟨[], by simp [Conc.run], fun r h => (by cases h)⟩
  | cons k sched ih =>
    have hrun : s.run e (k :: sched) = (s.step e k).run e sched := rfl
    rw [hrun]
    by_cases hk : i = k
    · subst hk
      rcases s.step_log e i with ⟨-, h2⟩ | ⟨h1, h2⟩ | ⟨v, h1, h2⟩
      · rw [h] at h2
        cases h2
      · obtain ⟨new, h3, h4⟩ := ih (h2.trans h)
        exact ⟨new, by rw [h3, h1], h4⟩
      · have hmono : ∀ (sched : List ℕ) (s : Conc R), ∃ new, (s.run e sched).log = s.log ++ new := by
          intro sched
          induction sched with
          | nil => exact fun s => ⟨[], by simp [Conc.run]⟩
          | cons k sched ih =>
            intro s
            obtain ⟨new, hnew⟩ := ih (s.step e k)
            rcases s.step_log e k with ⟨h1, -⟩ | ⟨h1, -⟩ | ⟨v, h1, -⟩
            · exact ⟨new, by rw [← h1]; exact hnew⟩
            · exact ⟨new, by rw [← h1]; exact hnew⟩
            · exact ⟨(k, v) :: new, by
                rw [show s.run e (k :: sched) = (s.step e k).run e sched from rfl, hnew, h1]
                simp⟩
        obtain ⟨new, hnew⟩ := hmono sched (s.step e i)
        refine ⟨(i, v) :: new, by rw [hnew, h1]; simp, fun r hr => ?_⟩
        simp only [List.find?_cons, beq_self_eq_true, Option.some.injEq] at hr
        subst hr
        rw [h] at h2
        exact (Option.some.inj h2).symm
    · obtain ⟨new, h3, h4⟩ := ih (s := s.step e k) (by rw [Conc.step_other e s hk]; exact h)
      rcases s.step_log e k with ⟨h1, -⟩ | ⟨h1, -⟩ | ⟨v, h1, -⟩
      · exact ⟨new, by rw [h3, h1], h4⟩
      · exact ⟨new, by rw [h3, h1], h4⟩
      · refine ⟨(k, v) :: new, by rw [h3, h1]; simp, fun r hr => h4 r ?_⟩
        rwa [List.find?_cons, show ((k, v).1 == i) = false from by simpa using Ne.symm hk] at hr

/-- C22 fails under every schedule in which two goroutines read the length one right after the other:
whatever happens next, both get the same ID. -/
theorem concurrent_same_id (e : ℕ) {s : Conc R} {i j : ℕ} (hij : i ≠ j) (hi : s.pc i = .start)
    (hj : s.pc j = .start) (sched : List ℕ) :
    ∃ new, (s.run e (i :: j :: sched)).log = s.log ++ new ∧
      ∀ r r', new.find? (fun r => r.1 == i) = some r → new.find? (fun r => r.1 == j) = some r' →
        r.2.id = r'.2.id := by
  have hstep : ∀ (s : Conc R) (i : ℕ), s.pc i = .start →
      s.step e i = ⟨s.vars, fun j => if j = i then .gotLen s.vars.length else s.pc j, s.log⟩ := by
    intro s i h
    unfold Conc.step
    rw [h]
  have h1 := hstep s i hi
  have h2 := hstep (s.step e i) j (by rw [Conc.step_other e s hij.symm]; exact hj)
  have hlog : ((s.step e i).step e j).log = s.log := by rw [h2, h1]
  obtain ⟨new, h3, h4⟩ := concurrent_next e sched (s := (s.step e i).step e j) (i := i)
    (n := s.vars.length) (by rw [Conc.step_other e _ hij, h1]; simp [PC.num])
  obtain ⟨new', h5, h6⟩ := concurrent_next e sched (s := (s.step e i).step e j) (i := j)
    (n := s.vars.length) (by rw [h2, h1]; simp [PC.num])
  rw [hlog] at h3 h5
  have : new' = new := List.append_cancel_left (h5.symm.trans h3)
  subst this
  exact ⟨new', h3, fun r r' hr hr' => (h4 r hr).trans (h6 r' hr').symm⟩

end Conc

/-! ## Counterexamples -/

/-- C21 is false: after tracking a variable with ID `1` in an empty environment, a new variable has the
ID of the tracked one. -/
theorem newVar_fresh_false : ¬ ∀ (os : List (EnvOp ℚ)) (pre post : List (EnvOp ℚ)) (o : EnvOp ℚ)
    (r : List (Var ℚ) × Envs ℚ), os = pre ++ o :: post →
    o.call (EnvOp.run (fun _ => []) pre).2 = .ok r →
    ∀ v ∈ r.1, v.id ∉ ((EnvOp.run (fun _ => []) pre).2 v.env).map (·.id) := by
  intro h
  refine h [.track 0 wy, .newContinuous []] [.track 0 wy] [] (.newContinuous []) _ rfl rfl
    _ List.mem_cons_self ?_
  decide

/-- C21 is false: two created variables can have the same ID. -/
theorem created_distinct_false : ∃ os : List (EnvOp ℚ),
    (EnvOp.run (fun _ => []) os).1.map (·.id) = [1, 1] :=
  ⟨[.track 0 wy, .newContinuous [], .newBinary []], by decide⟩

/-- C22 is false: two goroutines in an empty environment. -/
theorem concurrent_false : ∃ (s : Conc ℚ) (sched : List ℕ), s.vars = [] ∧ (∀ i, s.pc i = .start) ∧
    (s.run 0 sched).log.map (fun r => (r.1, r.2.id)) = [(0, 0), (1, 0)] :=
  ⟨⟨[], fun _ => .start, []⟩, [0, 1, 0, 0, 1, 1], rfl, fun _ => rfl, by decide⟩

/-! ## The hypotheses can be met -/

/-- Two environments; the second also tracks a variable it created before. -/
def wOps : List (EnvOp ℚ) :=
  [.newContinuous [], .newVector 2 [1], .track 1 (newVarValue false 1 1), .newMatrix 2 2 [1],
    .newBinary [], .track 0 wz, .newContinuous [5, 6]]

theorem wOps_fine : FineRun (fun _ => []) wOps := by
  intro pre o post h
  have hlen : pre.length < wOps.length := by rw [h]; simp
  have hpre : pre = wOps.take pre.length := by rw [h]; simp
  have ho : wOps[pre.length]? = some o := by rw [h]; simp
  have hl : wOps.length = 7 := rfl
  rw [hl] at hlen
  generalize hk : pre.length = k at *
  rw [hpre]
  match k, hlen, ho with
  | 0, _, ho => cases ho; trivial
  | 1, _, ho => cases ho; trivial
  | 2, _, ho =>
    cases ho
    left
    decide
  | 3, _, ho => cases ho; trivial
  | 4, _, ho => cases ho; trivial
  | 5, _, ho =>
    cases ho
    right
    decide
  | 6, _, ho => cases ho; trivial

example : (EnvOp.run (fun _ => []) wOps).1.map (fun v => (v.env, v.id)) =
    [(0, 0), (1, 0), (1, 1), (1, 2), (1, 3), (1, 4), (1, 5), (0, 1), (0, 3)] := by decide

example : (EnvOp.run (fun _ => []) wOps).1.Pairwise (fun u v => u.env = v.env → u.id ≠ v.id) :=
  history_distinct_partial (fun _ => Numbered.nil) wOps_fine

example : ∀ v ∈ ([newVarValue false 3 0] : List (Var ℚ)), v.env = 0 ∧
    v.id ∉ ((EnvOp.run (fun _ => []) (wOps.take 6)).2 v.env).map (·.id) :=
  fun v hv => ⟨((history_fresh_partial (fun _ => Numbered.nil) wOps_fine (pre := wOps.take 6)
      (post := []) (o := .newContinuous [5, 6]) rfl rfl).2.2 v hv).1,
    ((history_fresh_partial (fun _ => Numbered.nil) wOps_fine (pre := wOps.take 6)
      (post := []) (o := .newContinuous [5, 6]) rfl rfl).2.2 v hv).2.1⟩

example : (newVars 3 0 (fun _ => [wy])).2 = fun _ => [wy] := (newVars_stuck (by decide) 3).1

example (e : ℕ) : (((EnvOp.run (fun _ => [wx, wz]) wOps).2 e).map (·.id)).Nodup :=
  history_nodup wOps (fun _ => by decide) e

example : ∃ vs, ((⟨[], fun _ => .start, []⟩ : Conc ℚ).run 0 ([0, 1, 0, 2].flatMap fun i => [i, i, i])).log
    = [0, 1, 0, 2].zip vs ∧ vs.length = 4 ∧ (vs.map (·.id)).Nodup := by
  obtain ⟨vs, h1, h2, h3, -⟩ := concurrent_serial_partial (R := ℚ) 0 [0, 1, 0, 2]
    (s := ⟨[], fun _ => .start, []⟩) (fun _ => rfl) Numbered.nil rfl
  exact ⟨vs, h1, h2, h3⟩

example : ((⟨[], fun _ => .start, []⟩ : Conc ℚ).run 0 [2, 5, 5, 2, 2, 5]).log.map
    (fun r => (r.1, r.2.id)) = [(2, 0), (5, 0)] := by decide

example : ∃ r, (Scalar.var wx).plus (.var (⟨0, 0, 1, 0, "y", 7⟩ : Var ℚ)) = .ok r ∧
    r.variables.length = 1 := by
  obtain ⟨r, h1, -, h2⟩ := plus_variables_iff (x := wx) (y := (⟨0, 0, 1, 0, "y", 7⟩ : Var ℚ))
    (wv_ok 0) (wv_ok 0)
  exact ⟨r, h1, h2.mpr rfl⟩

example : (∃ r, (Scalar.var wx).plus (.var wy) = .ok r ∧ r.variables.length = 2) ∧
    ∃ r, (Scalar.var wx).minus (.var wy) = .ok r ∧ r.den ≠ 0 :=
  different_ids_stay_distinct_partial (wv_ok 0) (wv_ok 1) (by decide)

end Verif
