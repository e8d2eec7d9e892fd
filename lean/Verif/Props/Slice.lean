import Verif.Model.Slice
import Verif.Props.Share

/-!
# C51: multiplication and the caller's slices
-/

namespace Verif

variable {R : Type}

theorem writeAt_length {l vs : List (Var R)} {i : ℕ} (h : i + vs.length ≤ l.length) :
    (writeAt l i vs).length = l.length := by
  simp [writeAt]
  omega

theorem writeAt_getElem? {l vs : List (Var R)} {i : ℕ} (h : i + vs.length ≤ l.length) (k : ℕ) :
    (writeAt l i vs)[k]? = if i ≤ k ∧ k < i + vs.length then vs[k - i]? else l[k]? := by
  unfold writeAt
  have hi : (l.take i).length = i := by simp; omega
  by_cases h1 : k < i
  · rw [List.append_assoc, List.getElem?_append_left (by omega), List.getElem?_take_of_lt h1,
      if_neg (by omega)]
  · rw [List.append_assoc, List.getElem?_append_right (by omega), hi]
    by_cases h2 : k - i < vs.length
    · rw [List.getElem?_append_left h2, if_pos (by omega)]
    · rw [List.getElem?_append_right (by omega), List.getElem?_drop, if_neg (by omega)]
      congr 1
      omega

/-- The slice lies in its array. -/
structure Sl.WF (μ : VMem R) (s : Sl) : Prop where
  arr : s.arr < μ.length
  len : s.len ≤ s.cap
  cap : s.off + s.cap ≤ (μ.getD s.arr []).length

theorem Sl.read_getElem? (μ : VMem R) (s : Sl) (k : ℕ) :
    (s.read μ)[k]? = if k < s.len then (μ.getD s.arr [])[s.off + k]? else none := by
  unfold Sl.read
  rw [List.getElem?_take, List.getElem?_drop]

theorem Sl.WF.read_length {μ : VMem R} {s : Sl} (h : s.WF μ) : (s.read μ).length = s.len := by
  have := h.len
  have := h.cap
  simp only [Sl.read, List.length_take, List.length_drop]
  omega

theorem getD_modify {μ : VMem R} {i : ℕ} {f : List (Var R) → List (Var R)} (hi : i < μ.length) (k : ℕ) :
    (μ.modify i f).getD k [] = if k = i then f (μ.getD k []) else μ.getD k [] := by
  simp only [List.getD_eq_getElem?_getD, List.getElem?_modify]
  split
  · next h => subst h; simp [hi]
  · next h => rw [if_neg (fun h' => h h'.symm)]; simp

/-! ## What `append` does -/

/-- The places `append` writes to: as many as `t` has elements, after the end of `s`. -/
def Writes (s t : Sl) (arr k : ℕ) : Prop :=
  s.len + t.len ≤ s.cap ∧ arr = s.arr ∧ s.off + s.len ≤ k ∧ k < s.off + s.len + t.len

theorem appendSl_mem {μ : VMem R} {s t : Sl} (hs : s.WF μ) (ht : t.WF μ) {arr : ℕ}
    (harr : arr < μ.length) (k : ℕ) :
    (((appendSl μ s t).1.getD arr [])[k]? = (μ.getD arr [])[k]? ∧ ¬ Writes s t arr k) ∨
    (((appendSl μ s t).1.getD arr [])[k]? = (t.read μ)[k - (s.off + s.len)]? ∧ Writes s t arr k) := by
  unfold appendSl
  by_cases h : s.len + t.len ≤ s.cap
  · rw [if_pos h]
    dsimp only
    rw [getD_modify hs.arr]
    by_cases ha : arr = s.arr
    · rw [if_pos ha, writeAt_getElem? (by rw [ht.read_length, ha]; have := hs.cap; omega), ht.read_length]
      by_cases hk : s.off + s.len ≤ k ∧ k < s.off + s.len + t.len
      · rw [if_pos hk]
        exact .inr ⟨rfl, h, ha, hk⟩
      · rw [if_neg hk]
        exact .inl ⟨rfl, fun hw => hk hw.2.2⟩
    · rw [if_neg ha]
      exact .inl ⟨rfl, fun hw => ha hw.2.1⟩
  · rw [if_neg h]
    dsimp only
    refine .inl ⟨?_, fun hw => h hw.1⟩
    rw [List.getD_eq_getElem?_getD, List.getElem?_append_left harr, ← List.getD_eq_getElem?_getD]

theorem appendSl_length {μ : VMem R} {s t : Sl} (hs : s.WF μ) (ht : t.WF μ) :
    μ.length ≤ (appendSl μ s t).1.length ∧
    ∀ arr < μ.length, ((appendSl μ s t).1.getD arr []).length = (μ.getD arr []).length := by
  unfold appendSl
  by_cases h : s.len + t.len ≤ s.cap
  · rw [if_pos h]
    dsimp only
    refine ⟨by simp, fun arr _ => ?_⟩
    rw [getD_modify hs.arr]
    split
    · next ha =>
      rw [writeAt_length]
      rw [ht.read_length, ha]
      have := hs.cap
      omega
    · rfl
  · rw [if_neg h]
    dsimp only
    refine ⟨by simp, fun arr harr => ?_⟩
    rw [List.getD_eq_getElem?_getD, List.getElem?_append_left harr, ← List.getD_eq_getElem?_getD]

theorem Sl.WF.append {μ : VMem R} {s t u : Sl} (hu : u.WF μ) (hs : s.WF μ) (ht : t.WF μ) :
    u.WF (appendSl μ s t).1 := by
  obtain ⟨h1, h2⟩ := appendSl_length hs ht
  exact ⟨lt_of_lt_of_le hu.arr h1, hu.len, by rw [h2 _ hu.arr]; exact hu.cap⟩

/-- A slice none of whose places is written reads the same afterwards. -/
theorem read_append_kept {μ : VMem R} {s t u : Sl} (hu : u.WF μ) (hs : s.WF μ) (ht : t.WF μ)
    (h : ∀ k < u.len, ¬ Writes s t u.arr (u.off + k)) : u.read (appendSl μ s t).1 = u.read μ := by
  refine List.ext_getElem? fun k => ?_
  rw [Sl.read_getElem?, Sl.read_getElem?]
  split
  · next hk =>
    rcases appendSl_mem hs ht hu.arr (u.off + k) with ⟨h1, -⟩ | ⟨-, h2⟩
    · exact h1
    · exact absurd h2 (h k hk)
  · rfl

/-- The slice `append` returns holds the elements of both. -/
theorem read_append {μ : VMem R} {s t : Sl} (hs : s.WF μ) (ht : t.WF μ) :
    (appendSl μ s t).2.read (appendSl μ s t).1 = s.read μ ++ t.read μ := by
  by_cases h : s.len + t.len ≤ s.cap
  · refine List.ext_getElem? fun k => ?_
    have h2 : (appendSl μ s t).2 = { s with len := s.len + t.len } := by unfold appendSl; rw [if_pos h]
    rw [h2, Sl.read_getElem?]
    dsimp only
    by_cases hk : k < s.len
    · rw [if_pos (by omega), List.getElem?_append_left (by rw [hs.read_length]; exact hk),
        Sl.read_getElem?, if_pos hk]
      rcases appendSl_mem hs ht hs.arr (s.off + k) with ⟨h1, -⟩ | ⟨-, h2⟩
      · exact h1
      · exact absurd h2.2.2.1 (by omega)
    · rw [List.getElem?_append_right (by rw [hs.read_length]; omega), hs.read_length]
      by_cases hk2 : k < s.len + t.len
      · rw [if_pos hk2]
        rcases appendSl_mem hs ht hs.arr (s.off + k) with ⟨-, h2⟩ | ⟨h1, -⟩
        · exact absurd ⟨h, rfl, by omega, by omega⟩ h2
        · rw [h1]
          congr 1
          omega
      · rw [if_neg hk2, Sl.read_getElem?, if_neg (by omega)]
  · unfold appendSl
    rw [if_neg h]
    dsimp only
    unfold Sl.read
    dsimp only
    rw [List.getD_eq_getElem?_getD, List.getElem?_append_right le_rfl]
    simp only [Nat.sub_self, List.getElem?_cons_zero, Option.getD_some, List.drop_zero]
    rw [List.take_of_length_le]
    have h1 := hs.read_length
    have h2 := ht.read_length
    unfold Sl.read at h1 h2
    rw [List.length_append, h1, h2]

/-! ## One multiplication -/

section
variable [GoNum R]

/-- C51, exact, what a call to `Multiply` may write: only places after the end of the receiver's slice,
inside its capacity, one for each factor of the argument; there it puts the factors of the argument. -/
theorem multiply_writes {μ : VMem R} {m r : SMono R} (hm : m.vars.WF μ) (hr : r.vars.WF μ) {arr : ℕ}
    (harr : arr < μ.length) (k : ℕ) :
    (((m.mul μ r).1.getD arr [])[k]? = (μ.getD arr [])[k]?) ∨
    (Writes m.vars r.vars arr k ∧
      ((m.mul μ r).1.getD arr [])[k]? = (r.vars.read μ)[k - (m.vars.off + m.vars.len)]?) := by
  unfold SMono.mul
  split
  · exact .inl rfl
  · rcases appendSl_mem hm hr harr k with ⟨h1, -⟩ | ⟨h1, h2⟩
    · exact .inl h1
    · exact .inr ⟨h2, h1⟩

/-- C51: well-formed operands: all those places are written. -/
theorem multiply_writes_all {μ : VMem R} {m r : SMono R} (hm : m.vars.WF μ) (hr : r.vars.WF μ)
    (h1 : (m.value μ).check = .ok ()) (h2 : (r.value μ).check = .ok ()) {arr k : ℕ}
    (hw : Writes m.vars r.vars arr k) :
    ((m.mul μ r).1.getD arr [])[k]? = (r.vars.read μ)[k - (m.vars.off + m.vars.len)]? := by
  unfold SMono.mul
  rw [h1, h2]
  rcases appendSl_mem hm hr (arr := arr) (by rw [hw.2.1]; exact hm.arr) k with ⟨-, h4⟩ | ⟨h4, -⟩
  · exact absurd hw h4
  · exact h4

/-- C51: the receiver keeps its value. -/
theorem multiply_receiver {μ : VMem R} {m r : SMono R} (hm : m.vars.WF μ) (hr : r.vars.WF μ) :
    m.value (m.mul μ r).1 = m.value μ := by
  unfold SMono.mul
  split
  · rfl
  · unfold SMono.value
    rw [read_append_kept hm hm hr fun k hk hw => by have := hw.2.2.1; omega]

/-- C51: every slice of the caller that does not reach into the spare capacity of the receiver (or that
lies behind the places written) keeps its elements. -/
theorem multiply_keeps {μ : VMem R} {m r : SMono R} {u : Sl} (hu : u.WF μ) (hm : m.vars.WF μ)
    (hr : r.vars.WF μ) (h : ∀ k < u.len, ¬ Writes m.vars r.vars u.arr (u.off + k)) :
    u.read (m.mul μ r).1 = u.read μ := by
  unfold SMono.mul
  split
  · rfl
  · exact read_append_kept hu hm hr h

/-- C51 for operands in memory: the product is that of the values if the factors of the argument do not
lie where the call writes, except exactly there. -/
theorem multiply_value_partial {μ : VMem R} {m r : SMono R} (hm : m.vars.WF μ) (hr : r.vars.WF μ)
    (h : (∀ k < r.vars.len, ¬ Writes m.vars r.vars r.vars.arr (r.vars.off + k)) ∨
      r.vars.arr = m.vars.arr ∧ r.vars.off = m.vars.off + m.vars.len) :
    (m.mul μ r).2 = (do
      (m.value μ).check
      (r.value μ).check
      (m.value μ).mulMono (r.value μ)) := by
  have hread : r.vars.read (appendSl μ m.vars r.vars).1 = r.vars.read μ := by
    rcases h with h | ⟨h1, h2⟩
    · exact read_append_kept hr hm hr h
    · refine List.ext_getElem? fun k => ?_
      rw [Sl.read_getElem?]
      split
      · next hk =>
        rcases appendSl_mem hm hr hr.arr (r.vars.off + k) with ⟨h3, -⟩ | ⟨h3, -⟩
        · rw [h3, Sl.read_getElem?, if_pos hk]
        · rw [h3]
          congr 1
          omega
      · next hk => rw [Sl.read_getElem?, if_neg hk]
  unfold SMono.mul
  cases h1 : (m.value μ).check with
  | error e => rfl
  | ok _ =>
    cases h2 : (r.value μ).check with
    | error e => rfl
    | ok _ =>
      show (m.value _).mulWith (r.value _) _ = (m.value μ).mulMono (r.value μ)
      rw [mulMono_eq, read_append hm hr]
      unfold SMono.value
      rw [hread, read_append_kept hm hm hr fun k hk hw => by have := hw.2.2.1; omega]

/-! ## Programs whose slices are their own -/

/-- The same program on values. -/
def pureStep (ms : List (Mono R)) : SOp R → List (Mono R)
  | .make m _ => ms ++ [m]
  | .dup i =>
    match ms[i]? with
    | none => ms
    | some m => ms ++ [m]
  | .mul i j _ =>
    match ms[i]?, ms[j]? with
    | some m, some r =>
      match m.mul (.mono r) with
      | .ok (.mono q) => ms ++ [q]
      | _ => ms
    | _, _ => ms

/-- Slices of the same array have the same extent. -/
structure SState.Inv (s : SState R) : Prop where
  wf : ∀ m ∈ s.ms, m.vars.WF s.mem
  own : ∀ m ∈ s.ms, ∀ n ∈ s.ms, m.vars.arr = n.vars.arr → m.vars.off = n.vars.off ∧ m.vars.len = n.vars.len

omit [GoNum R] in
theorem SState.Inv.push {s : SState R} (h : s.Inv) (q : Mono R) (spare : List (Var R)) :
    (s.push q spare).Inv ∧ (s.push q spare).values = s.values ++ [q] := by
  have hgrow : ∀ (u : Sl), u.WF s.mem → u.WF (s.push q spare).mem ∧
      u.read (s.push q spare).mem = u.read s.mem := by
    intro u hu
    have : (s.push q spare).mem.getD u.arr [] = s.mem.getD u.arr [] := by
      show (s.mem ++ _).getD u.arr [] = _
      rw [List.getD_eq_getElem?_getD, List.getElem?_append_left hu.arr, ← List.getD_eq_getElem?_getD]
    refine ⟨⟨?_, hu.len, by rw [this]; exact hu.cap⟩, by unfold Sl.read; rw [this]⟩
    show u.arr < (s.mem ++ _).length
    have := hu.arr
    simp
    omega
  have hnew : (s.push q spare).mem.getD s.mem.length [] = q.vars ++ spare := by
    show (s.mem ++ _).getD _ [] = _
    simp [List.getD_eq_getElem?_getD]
  have hms : ∀ m, m ∈ (s.push q spare).ms → m ∈ s.ms ∨
      m = ⟨q.coeff, q.exps, ⟨s.mem.length, 0, q.vars.length, q.vars.length + spare.length⟩⟩ := by
    intro m hm
    rcases List.mem_append.mp hm with hm | hm
    · exact .inl hm
    · exact .inr (List.mem_singleton.mp hm)
  refine ⟨⟨fun m hm => ?_, fun m hm n hn hmn => ?_⟩, ?_⟩
  · rcases hms m hm with hm | rfl
    · exact (hgrow _ (h.wf m hm)).1
    · refine ⟨?_, by simp, ?_⟩
      · show s.mem.length < (s.mem ++ _).length
        simp
      · show 0 + _ ≤ ((s.push q spare).mem.getD s.mem.length []).length
        rw [hnew]
        simp
  · rcases hms m hm with hm | rfl <;> rcases hms n hn with hn | rfl
    · exact h.own m hm n hn hmn
    · exact absurd hmn (Nat.ne_of_lt (h.wf m hm).arr)
    · exact absurd hmn.symm (Nat.ne_of_lt (h.wf n hn).arr)
    · exact ⟨rfl, rfl⟩
  · show List.map _ (s.ms ++ [_]) = _
    rw [List.map_append]
    refine congrArg₂ _ (List.map_congr_left fun m hm => ?_) ?_
    · unfold SMono.value
      rw [(hgrow _ (h.wf m hm)).2]
    · simp only [List.map_cons, List.map_nil, SMono.value, Sl.read, hnew]
      simp

theorem SState.Inv.mul {s : SState R} (h : s.Inv) {m r : SMono R} (hm : m ∈ s.ms) (hr : r ∈ s.ms) :
    (SState.mk (m.mul s.mem r).1 s.ms).Inv ∧ (SState.mk (m.mul s.mem r).1 s.ms).values = s.values := by
  have hkeep : ∀ u ∈ s.ms, ∀ k < u.vars.len, ¬ Writes m.vars r.vars u.vars.arr (u.vars.off + k) := by
    intro u hu k hk hw
    obtain ⟨h1, h2⟩ := h.own u hu m hm hw.2.1
    have := hw.2.2.1
    omega
  constructor
  · refine ⟨fun u hu => ?_, h.own⟩
    show u.vars.WF (m.mul s.mem r).1
    unfold SMono.mul
    split
    · exact h.wf u hu
    · exact (h.wf u hu).append (h.wf m hm) (h.wf r hr)
  · refine List.map_congr_left fun u hu => ?_
    unfold SMono.value
    rw [multiply_keeps (h.wf u hu) (h.wf m hm) (h.wf r hr) (hkeep u hu)]

omit [GoNum R] in
theorem SState.values_getElem? (s : SState R) (i : ℕ) :
    s.values[i]? = (s.ms[i]?).map (SMono.value s.mem) := by
  unfold SState.values
  rw [List.getElem?_map]

theorem SState.Inv.step {s : SState R} (h : s.Inv) (o : SOp R) :
    (s.step o).Inv ∧ (s.step o).values = pureStep s.values o := by
  cases o with
  | make m spare => exact h.push m spare
  | dup i =>
    unfold SState.step pureStep
    dsimp only
    rw [SState.values_getElem?]
    cases hi : s.ms[i]? with
    | none => exact ⟨h, rfl⟩
    | some m =>
      have hm := List.mem_of_getElem? hi
      refine ⟨⟨fun u hu => ?_, fun u hu n hn hun => ?_⟩, ?_⟩
      · rcases List.mem_append.mp hu with hu | hu
        · exact h.wf u hu
        · rw [List.mem_singleton.mp hu]; exact h.wf m hm
      · have hu' : u ∈ s.ms := by
          rcases List.mem_append.mp hu with hu | hu
          · exact hu
          · rw [List.mem_singleton.mp hu]; exact hm
        have hn' : n ∈ s.ms := by
          rcases List.mem_append.mp hn with hn | hn
          · exact hn
          · rw [List.mem_singleton.mp hn]; exact hm
        exact h.own u hu' n hn' hun
      · show List.map _ (s.ms ++ [m]) = _
        rw [List.map_append]
        rfl
  | mul i j spare =>
    unfold SState.step pureStep
    dsimp only
    rw [SState.values_getElem?, SState.values_getElem?]
    cases hi : s.ms[i]? with
    | none => exact ⟨h, rfl⟩
    | some m =>
      cases hj : s.ms[j]? with
      | none => exact ⟨h, rfl⟩
      | some r =>
        have hm := List.mem_of_getElem? hi
        have hr := List.mem_of_getElem? hj
        obtain ⟨h1, h2⟩ := h.mul hm hr
        have h3 := multiply_value_partial (h.wf m hm) (h.wf r hr) (.inl fun k hk hw => by
          obtain ⟨h4, h5⟩ := h.own r hr m hm hw.2.1
          have := hw.2.2.1
          omega)
        have h4 : (m.value s.mem).mul (.mono (r.value s.mem)) = (do
            return Scalar.mono (← (m.mul s.mem r).2)) := by
          rw [h3]
          unfold Mono.mul
          cases (m.value s.mem).check with
          | error e => rfl
          | ok _ =>
            show (do (r.value s.mem).check; _) = _
            cases (r.value s.mem).check with
            | error e => rfl
            | ok _ => rfl
        simp only [Option.map_some]
        rw [h4]
        cases h5 : (m.mul s.mem r).2 with
        | error e => exact ⟨h1, h2⟩
        | ok q =>
          obtain ⟨h6, h7⟩ := h1.push q spare
          exact ⟨h6, by rw [h2] at h7; exact h7⟩

/-- C51 for every program, of any length, that does not write down a monomial with a slice of another
slice's array: each monomial always has the value it would have if slices were values, whatever the
capacities. -/
theorem multiply_program_partial (ops : List (SOp R)) :
    ((SState.mk [] []).run ops).values = ops.foldl pureStep [] := by
  have main : ∀ (ops : List (SOp R)) (s : SState R), s.Inv →
      (s.run ops).values = ops.foldl pureStep s.values := by
    intro ops
    induction ops with
    | nil => exact fun s _ => rfl
    | cons o ops ih =>
      intro s h
      obtain ⟨h1, h2⟩ := h.step o
      show ((s.step o).run ops).values = _
      rw [ih _ h1, h2]
      rfl
  exact main ops _ ⟨fun m hm => (by cases hm), fun m hm => (by cases hm)⟩

end

/-! ## Counterexamples and cases -/

/-- The caller's array of four variables. -/
def wArr : VMem ℚ := [[wv 0, wv 1, wv 2, wv 3], [wv 4]]

/-- C51 is false: with `vars` an array of four variables, `Monomial{1, {1}, vars[:1]}` times `x_4`
overwrites `vars[1]`. -/
theorem multiply_caller_false :
    let m : SMono ℚ := ⟨1, [1], ⟨0, 0, 1, 4⟩⟩
    let r : SMono ℚ := ⟨1, [1], ⟨1, 0, 1, 1⟩⟩
    m.vars.WF wArr ∧ r.vars.WF wArr ∧ (m.mul wArr r).1 = [[wv 0, wv 4, wv 2, wv 3], [wv 4]] :=
  ⟨⟨by decide, by decide, by decide⟩, ⟨by decide, by decide, by decide⟩, by decide +kernel⟩

/-- C51 is false: `Monomial{1, {1}, vars[:1]}` times `Monomial{1, {1, 1}, vars[2:4]}` is computed as
`x_0 * x_2^0 * x_3^2`, and the argument is `x_3 * x_3` afterwards. -/
theorem multiply_value_false :
    let m : SMono ℚ := ⟨1, [1], ⟨0, 0, 1, 4⟩⟩
    let r : SMono ℚ := ⟨1, [1, 1], ⟨0, 2, 2, 2⟩⟩
    m.vars.WF wArr ∧ r.vars.WF wArr ∧
      (m.mul wArr r).2 = .ok ⟨1, [1, 0, 2], [wv 0, wv 2, wv 3]⟩ ∧
      (m.value wArr).mulMono (r.value wArr) = .ok ⟨1, [1, 1, 1], [wv 0, wv 2, wv 3]⟩ ∧
      r.value (m.mul wArr r).1 = ⟨1, [1, 1], [wv 3, wv 3]⟩ :=
  ⟨⟨by decide, by decide, by decide⟩, ⟨by decide, by decide, by decide⟩, by decide +kernel,
    by decide +kernel, by decide +kernel⟩

/-- `vars[:1]` times `vars[1:3]` is right although the slices touch. -/
example : let m : SMono ℚ := ⟨1, [1], ⟨0, 0, 1, 4⟩⟩
    let r : SMono ℚ := ⟨1, [1, 1], ⟨0, 1, 2, 3⟩⟩
    (m.mul wArr r).2 = .ok ⟨1, [1, 1, 1], [wv 0, wv 1, wv 2]⟩ := by
  decide +kernel

/-- A program with spare capacity everywhere: `x*y*z` is multiplied by `x_3` and by `x_4`; the first
product survives the second multiplication. -/
example : (((SState.mk [] []).run [.make ⟨1, [1, 1, 1], [wv 0, wv 1, wv 2]⟩ [wv 9], .make ⟨1, [1], [wv 3]⟩ [],
    .make ⟨1, [1], [wv 4]⟩ [], .mul 0 1 [wv 8, wv 8], .dup 3, .mul 0 2 [], .mul 3 4 [wv 7]] :
      SState ℚ).values.map (fun m => (m.exps, m.vars.map (·.id)))).drop 3 =
    [([1, 1, 1, 1], [0, 1, 2, 3]), ([1, 1, 1, 1], [0, 1, 2, 3]), ([1, 1, 1, 1], [0, 1, 2, 4]),
      ([2, 2, 2, 2], [0, 1, 2, 3])] := by
  decide +kernel

end Verif
