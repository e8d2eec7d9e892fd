import Verif.Model.Util
import Verif.Props.Vars
import Verif.Props.RejectArray

/-!
# C60, C61: `FindInSlice`; substitution maps with arbitrary values

`Elem.AtIndex` says what it means that an entry of a slice is a given value; it does not refer to the
search.
-/

namespace Verif

variable {R : Type}

/-- The slice has this value at this index. -/
def Elem.AtIndex (x : Elem R) (s : SliceArg R) (i : Nat) : Prop :=
  match x, s with
  | .str a, .strs l => l[i]? = some a
  | .int a, .ints l => l[i]? = some a
  | .u64 a, .u64s l => l[i]? = some a
  | .var a, .vars l => l[i]? = some a
  | _, _ => False

/-- The slice is one of values of the same type. -/
def Elem.Fits (x : Elem R) (s : SliceArg R) : Prop :=
  match x, s with
  | .str _, .strs _ => True
  | .int _, .ints _ => True
  | .u64 _, .u64s _ => True
  | .var _, .vars _ => True
  | _, _ => False

theorem findEq_last {α : Type} [DecidableEq α] {x : α} {l : List α} {i : Nat}
    (h : findEq x l = some i) : l[i]? = some x ∧ ∀ j, i < j → l[j]? ≠ some x := by
  induction l generalizing i with
  | nil => simp [findEq] at h
  | cons y ys ih =>
    unfold findEq at h
    cases hy : findEq x ys with
    | some k =>
      rw [hy] at h
      obtain rfl : k + 1 = i := Option.some.inj h
      obtain ⟨h1, h2⟩ := ih hy
      refine ⟨by simpa using h1, fun j hj => ?_⟩
      cases j with
      | zero => omega
      | succ j => simpa using h2 j (by omega)
    | none =>
      rw [hy] at h
      by_cases hx : x = y
      · simp only [hx, if_true] at h
        obtain rfl : 0 = i := Option.some.inj h
        refine ⟨by simp [hx], fun j hj => ?_⟩
        cases j with
        | zero => omega
        | succ j =>
          intro hc
          rw [List.getElem?_cons_succ] at hc
          exact findEq_eq_none.mp hy (List.mem_of_getElem? hc)
      · simp [hx] at h

/-- The answer `i` of a search that succeeds or fails as documented. -/
def FoundAt (P : Nat → Prop) (i : Int) : Prop :=
  (i = -1 ∧ ∀ k, ¬ P k) ∨ ∃ k : Nat, i = k ∧ P k ∧ ∀ j, k < j → ¬ P j

theorem foundAt_findEq {α : Type} [DecidableEq α] (x : α) (l : List α) :
    FoundAt (fun k => l[k]? = some x) (locationInt (findEq x l)) := by
  cases h : findEq x l with
  | none =>
    exact Or.inl ⟨rfl, fun k hk => findEq_eq_none.mp h (List.mem_of_getElem? hk)⟩
  | some i => exact Or.inr ⟨i, rfl, findEq_last h⟩

/-- C60: for strings, `int`s and `uint64`s, searched in a slice of the same type, `FindInSlice`
returns no error, and the last index with an equal entry, or `-1` if there is none. -/
theorem findInSlice_partial {x : Elem R} {s : SliceArg R} (h : x.Fits s) (hv : ∀ v, x ≠ .var v) :
    ∃ i, findInSlice x s = .ok (i, false) ∧ FoundAt (x.AtIndex s) i := by
  cases x with
  | str a =>
    cases s with
    | strs l => exact ⟨_, rfl, foundAt_findEq a l⟩
    | _ => exact h.elim
  | int a =>
    cases s with
    | ints l => exact ⟨_, rfl, foundAt_findEq a l⟩
    | _ => exact h.elim
  | u64 a =>
    cases s with
    | u64s l => exact ⟨_, rfl, foundAt_findEq a l⟩
    | _ => exact h.elim
  | var a => exact absurd rfl (hv a)
  | other => cases s <;> exact h.elim

/-- C60: variables are compared by ID only: the answer is the last index of a variable with this ID,
or `-1` if there is none.  This is the documented answer if equal IDs mean equal variables
(`hid`). -/
theorem findInSlice_var_partial (x : Var R) (l : List (Var R)) :
    (∃ i, findInSlice (.var x) (.vars l) = .ok (i, false) ∧
      FoundAt (fun k => ∃ v, l[k]? = some v ∧ v.id = x.id) i) ∧
    ((hid : ∀ v ∈ l, v.id = x.id → v = x) →
      ∃ i, findInSlice (.var x) (.vars l) = .ok (i, false) ∧
        FoundAt ((Elem.var x).AtIndex (.vars l)) i) := by
  have key : FoundAt (fun k => ∃ v, l[k]? = some v ∧ v.id = x.id) (locationInt (findVar x l)) := by
    obtain ⟨h1, h2⟩ := findVar_last x l
    cases h : findVar x l with
    | none =>
      exact Or.inl ⟨rfl, fun k ⟨v, hk, hv⟩ => h1.mp h v (List.mem_of_getElem? hk) hv⟩
    | some i =>
      obtain ⟨h3, h4⟩ := h2 i h
      exact Or.inr ⟨i, rfl, h3, fun j hj ⟨v, hk, hv⟩ => h4 j v hj hk hv⟩
  refine ⟨⟨_, rfl, key⟩, fun hid => ⟨_, rfl, ?_⟩⟩
  have : (Elem.var x).AtIndex (.vars l) = fun k => ∃ v, l[k]? = some v ∧ v.id = x.id := by
    funext k
    refine propext ⟨fun h => ⟨x, h, rfl⟩, fun ⟨v, hk, hv⟩ => ?_⟩
    rw [hid v (List.mem_of_getElem? hk) hv] at hk
    exact hk
  rw [this]
  exact key

/-- C60: a slice of another type is an error with the index `-1`, unless a `uint64` is searched;
then the call panics. -/
theorem findInSlice_mismatch_partial {x : Elem R} {s : SliceArg R} (h : ¬ x.Fits s) :
    ((∀ n, x ≠ .u64 n) → findInSlice x s = .ok (-1, true)) ∧
    (∀ n, x = .u64 n → findInSlice x s = .error .typeAssert) := by
  constructor
  · intro hu
    cases x with
    | u64 n => exact absurd rfl (hu n)
    | _ => cases s <;> first | rfl | exact absurd trivial h
  · rintro n rfl
    cases s <;> first | rfl | exact absurd trivial h

/-- C60, not the general claim: a `uint64` searched in a slice of `int`s panics instead of returning
an error; a variable is found at an index that holds another variable. -/
theorem findInSlice_false :
    findInSlice (.u64 1 : Elem ℚ) (.ints [1]) = .error .typeAssert ∧
    findInSlice (.var wx) (.vars [{ wx with name := "other" }]) = .ok (0, false) ∧
    ¬ (Elem.var wx).AtIndex (.vars [{ wx with name := "other" }]) 0 := by
  refine ⟨rfl, by decide +kernel, ?_⟩
  show ¬ _ = _
  decide +kernel

example : findInSlice (.str "x" : Elem ℚ) (.strs ["x", "b", "x", "c"]) = .ok (2, false) := by
  decide +kernel
example : findInSlice (.int 7 : Elem ℚ) (.ints [1, 2]) = .ok (-1, false) := by decide +kernel
example : (Elem.str "x" : Elem ℚ).Fits (.strs ["x", "b", "x", "c"]) := trivial
example : ¬ (Elem.str "x" : Elem ℚ).Fits (.ints [1]) := fun h => h

/-- C60: `IsConstraint` answers `true` exactly for the three constraint types and pointers to them. -/
theorem isConstraint_iff (a : ConArg R) : isConstraint a = true ↔ a ≠ .other := by
  cases a <;> simp [isConstraint]

/-! ## Substitution maps -/

section
variable [GoNum R]

/-- The map is one that the documentation of `CheckSubstitutionMap` allows: valid variables as keys,
valid expressions as values, and these are scalars. -/
def ESubMap.Valid (sm : ESubMap R) : Prop :=
  ∀ kv ∈ sm, kv.1.OK ∧ kv.2.Accepted ∧ ∃ a, kv.2 = .s a

theorem checkESubEntry_cases (kv : Var R × Expr R) :
    (checkESubEntry kv = .ok () ↔ kv.1.OK ∧ kv.2.Accepted ∧ ∃ a, kv.2 = .s a) ∧
    (checkESubEntry kv = .ok () ∨ checkESubEntry kv = .error .check) := by
  obtain ⟨v, e⟩ := kv
  unfold checkESubEntry
  by_cases hv : v.OK
  · by_cases he : e.Accepted
    · simp only [hv, he, Var.check_ok_iff.mpr hv, expr_check_ok_iff_accepted.mpr he, Go.ok_bind, true_and]
      cases e with
      | s a => exact ⟨⟨fun _ => ⟨a, rfl⟩, fun _ => rfl⟩, Or.inl rfl⟩
      | v a => exact ⟨⟨fun h => (by cases h), fun ⟨_, h⟩ => by cases h⟩, Or.inr rfl⟩
      | m a => exact ⟨⟨fun h => (by cases h), fun ⟨_, h⟩ => by cases h⟩, Or.inr rfl⟩
    · simp only [Var.check_ok_iff.mpr hv, expr_check_error he, Go.ok_bind]
      exact ⟨⟨fun h => (by cases h), fun h => absurd h.2.1 he⟩, Or.inr rfl⟩
  · simp only [Var.check_error hv]
    exact ⟨⟨fun h => (by cases h), fun h => absurd h.1 hv⟩, Or.inr rfl⟩

/-- C61: `CheckSubstitutionMap` returns no error exactly for the valid maps. -/
theorem checkESubMap_iff (sm : ESubMap R) :
    (checkESubMap sm = .ok () ↔ sm.Valid) ∧ (¬ sm.Valid → checkESubMap sm = .error .check) := by
  have h := forM_check (l := sm) (chk := checkESubEntry) fun kv _ => (checkESubEntry_cases kv).2
  have h1 : checkESubMap sm = .ok () ↔ sm.Valid :=
    h.1.trans (forall₂_congr fun kv _ => (checkESubEntry_cases kv).1)
  exact ⟨h1, fun hn => h.2.resolve_left fun hc => hn (h1.mp hc)⟩

/-- A valid map has the entries of its scalar map. -/
theorem scalars_entries {sm : ESubMap R} (h : sm.Valid) :
    sm.scalars.map (fun kv => (kv.1, Expr.s kv.2)) = sm := by
  induction sm with
  | nil => rfl
  | cons kv sm ih =>
    obtain ⟨v, e⟩ := kv
    obtain ⟨-, -, a, rfl⟩ := h (v, e) (by simp)
    show (v, Expr.s a) :: _ = _
    exact congrArg _ (ih fun kv' h' => h kv' (by simp [h']))

theorem checkSubMap_scalars {sm : ESubMap R} (h : sm.Valid) : checkSubMap sm.scalars = .ok () := by
  unfold checkSubMap
  have h1 := forM_check (l := sm.scalars) (chk := fun kv => do kv.1.check; kv.2.check) fun kv _ => by
    rcases Var.check_cases kv.1 with h | h <;> rw [h]
    · exact check_cases kv.2
    · exact Or.inr rfl
  refine h1.1.mpr fun kv hkv => ?_
  have h2 : (kv.1, Expr.s kv.2) ∈ sm := by
    rw [← scalars_entries h]
    exact List.mem_map.mpr ⟨kv, hkv, rfl⟩
  obtain ⟨h3, h4, -⟩ := h _ h2
  simp only [Var.check_ok_iff.mpr h3, Go.ok_bind]
  exact check_ok_iff_accepted.mpr h4

/-- A constant number, vector or matrix. -/
def Expr.IsConst : Expr R → Prop
  | .s (.k _) => True
  | .v (.k _) => True
  | .m (.k _) => True
  | _ => False

/-- C61: `SubstituteAccordingTo` panics on every map that is not valid, and on a malformed receiver,
unless the receiver is a constant. -/
theorem substEMap_rejects {e : Expr R} {sm : ESubMap R} (hk : ¬ e.IsConst)
    (h : ¬ e.Accepted ∨ ¬ sm.Valid) : e.substEMap sm = .error .check := by
  have key : (e.check >>= fun _ => checkESubMap sm >>= fun _ => e.substMap sm.scalars) =
      .error .check := by
    by_cases he : e.Accepted
    · rw [expr_check_ok_iff_accepted.mpr he, Go.ok_bind,
        (checkESubMap_iff sm).2 (h.resolve_left fun h' => h' he)]
      rfl
    · rw [expr_check_error he]
      rfl
  rcases e with (_ | _ | _ | _) | (_ | _ | _ | _) | (_ | _ | _ | _) <;>
    first | exact absurd trivial hk | exact key

/-- C61: for a valid map `SubstituteAccordingTo` is the substitution of the scalars of the map, the
subject of C13, C14 and C41. -/
theorem substEMap_eq (e : Expr R) {sm : ESubMap R} (h : sm.Valid) :
    e.substEMap sm = e.substMap sm.scalars := by
  have key : ¬ e.IsConst → (e.check >>= fun _ => checkESubMap sm >>= fun _ => e.substMap sm.scalars) =
      e.substMap sm.scalars := fun hk => by
    by_cases he : e.Accepted
    · rw [expr_check_ok_iff_accepted.mpr he, Go.ok_bind, (checkESubMap_iff sm).1.mpr h]
      rfl
    · rw [expr_check_error he]
      symm
      refine array_substMap_rejects ?_ ?_ ?_ (Or.inl he)
      · rintro x rfl c rfl
        exact hk trivial
      · rintro l rfl
        exact hk trivial
      · rintro l rfl
        exact hk trivial
  rcases e with (_ | _ | _ | _) | (_ | _ | _ | _) | (_ | _ | _ | _) <;>
    first | rfl | exact key fun h => h

/-- C61: constants accept every map, valid or not. -/
theorem substEMap_const {e : Expr R} (hk : e.IsConst) (sm : ESubMap R) : e.substEMap sm = .ok e := by
  rcases e with (_ | _ | _ | _) | (_ | _ | _ | _) | (_ | _ | _ | _) <;>
    first | rfl | exact hk.elim

theorem expr_substMap_kind {e r : Expr R} {sm : SubMap R} (h : e.substMap sm = .ok r) :
    (∀ a, e = .s a → ∃ b, r = .s b ∧ a.substMap sm = .ok b) ∧
    (∀ a, e = .v a → ∃ b, r = .v b ∧ a.substMap sm = .ok b) ∧
    (∀ a, e = .m a → ∃ b, r = .m b ∧ a.substMap sm = .ok b) := by
  refine ⟨?_, ?_, ?_⟩ <;> rintro a rfl <;> obtain ⟨b, h1, h2⟩ := Go.bind_eq_ok.mp h <;>
    exact ⟨b, (Except.ok.inj h2).symm, h1⟩

/-- C61: a constraint accepts a valid map exactly as it accepts the scalars of the map. -/
theorem con_substEMap_eq (c : Con R) {sm : ESubMap R} (h : sm.Valid) :
    c.substEMap sm = c.substMap sm.scalars := by
  cases c with
  | s c =>
    unfold Con.substEMap Con.substMap SCon.substMap
    simp only [substEMap_eq _ h, Expr.substMap, bind_assoc, pure_bind]
    rfl
  | v c =>
    unfold Con.substEMap Con.substMap VCon.substMap
    simp only [substEMap_eq _ h, Expr.substMap, bind_assoc, pure_bind]
    rfl
  | m c =>
    unfold Con.substEMap Con.substMap MCon.substMap
    simp only [substEMap_eq _ h, Expr.substMap, bind_assoc, pure_bind]
    rfl

/-- C61: a constraint with a side that is not constant panics on every map that is not valid. -/
theorem con_substEMap_rejects {c : Con R} {sm : ESubMap R}
    (hk : ¬ c.left.IsConst ∨ ¬ c.right.IsConst) (h : ¬ sm.Valid) : (c.substEMap sm).isOk = false := by
  cases hr : c.substEMap sm with
  | error e => rfl
  | ok d =>
    exfalso
    obtain ⟨_, -, h1⟩ := Go.bind_eq_ok.mp hr
    have hl : ¬ c.left.IsConst → c.left.substEMap sm = .error .check :=
      fun hk => substEMap_rejects hk (Or.inr h)
    have hr : ¬ c.right.IsConst → c.right.substEMap sm = .error .check :=
      fun hk => substEMap_rejects hk (Or.inr h)
    cases c <;>
    · obtain ⟨l, h2, h3⟩ := Go.bind_eq_ok.mp h1
      obtain ⟨r, h4, -⟩ := Go.bind_eq_ok.mp h3
      rcases hk with hk | hk
      · exact absurd ((hl hk).symm.trans h2) (by simp)
      · exact absurd ((hr hk).symm.trans h4) (by simp)

end

/-- C61, not the general claim: the number `3` accepts a map with a vector as value. -/
theorem substEMap_false :
    (Expr.s (.k 3) : Expr ℚ).substEMap [(wx, .v (.k [1, 2]))] = .ok (.s (.k 3)) ∧
    ¬ ESubMap.Valid ([(wx, .v (.k [1, 2]))] : ESubMap ℚ) := by
  refine ⟨rfl, fun h => ?_⟩
  obtain ⟨-, -, a, h⟩ := h _ List.mem_cons_self
  cases h

/-- A valid map, and the substitution for it; a map with a vector as value. -/
example : ESubMap.Valid ([(wx, .s (.var wy))] : ESubMap ℚ) := by
  refine (checkESubMap_iff _).1.mp ?_
  decide +kernel
example : (Expr.s (.var wx)).substEMap [(wx, .s (.var wy))] = .ok (.s (.var wy)) := by decide +kernel
example : (Expr.s (.var wx)).substEMap [(wx, .v (.v [wy, wz]))] = .error .check := by decide +kernel

end Verif
