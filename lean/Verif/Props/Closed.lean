import Verif.Lemmas.Closed
import Verif.Props.Args
import Verif.Props.Shapes
import Verif.Props.ArraySubst
import Verif.Props.ArrayDeriv
import Verif.Props.Subst
import Verif.Props.Deriv

/-!
# C50: every expression that can be built is well formed
-/

set_option linter.unusedSectionVars false

namespace Verif

variable {S : Type} [GoNum S] {r c : ℕ}

/-- The expressions a program can obtain: constants and arrays of constants, variables with valid
bounds and arrays of them, and whatever the functions of the package return for expressions obtained
before. -/
inductive Built : Expr S → Prop
  | k (d : S) : Built (.s (.k d))
  | kvec (l : List S) (h : l ≠ []) : Built (.v (.k l))
  | kmat (rows : List (List S)) (r c : ℕ) (hr : 0 < r) (hc : 0 < c) (h1 : rows.length = r)
      (h2 : ∀ row ∈ rows, row.length = c) : Built (.m (.k rows))
  | var (v : Var S) (h : v.OK) : Built (.s (.var v))
  | vvec (l : List (Var S)) (h : l ≠ []) (hv : ∀ v ∈ l, v.OK) : Built (.v (.v l))
  | vmat (rows : List (List (Var S))) (r c : ℕ) (hr : 0 < r) (hc : 0 < c) (h1 : rows.length = r)
      (h2 : ∀ row ∈ rows, row.length = c) (hv : ∀ row ∈ rows, ∀ v ∈ row, v.OK) : Built (.m (.v rows))
  | plus {a b e : Expr S} : Built a → Built b → a.plus b = .ok e → Built e
  | minus {a b e : Expr S} : Built a → Built b → a.minus b = .ok e → Built e
  | mul {a b e : Expr S} : Built a → Built b → a.mul b = .ok e → Built e
  | plusArg {a y e : Expr S} {x : Arg S} : Built a → x.Means y → a.plusArg x = .ok e → Built e
  | minusArg {a y e : Expr S} {x : Arg S} : Built a → x.Means y → a.minusArg x = .ok e → Built e
  | mulArg {a y e : Expr S} {x : Arg S} : Built a → x.Means y → a.mulArg x = .ok e → Built e
  | power {a b : Scalar S} {n : ℤ} : Built (.s a) → a.power n = .ok b → Built (.s b)
  | vpower {a : Vec S} {b : Scalar S} {n : ℤ} : Built (.v a) → a.power n = .ok b → Built (.s b)
  | mpower {a b : Mat S} {n : ℤ} : Built (.m a) → a.power n = .ok b → Built (.m b)
  | transpose {a e : Expr S} : Built a → a.transpose = .ok e → Built e
  | simplify {a e : Expr S} : Built a → a.asSimplified = .ok e → Built e
  | hstack {es : List (Expr S)} {e : Expr S} : (∀ a ∈ es, Built a) → hstack es = .ok e → Built e
  | vstack {es : List (Expr S)} {e : Expr S} : (∀ a ∈ es, Built a) → vstack es = .ok e → Built e
  | at {a : Expr S} {i j : ℤ} {b : Scalar S} : Built a → a.at i j = .ok b → Built (.s b)
  | atVec {a : Vec S} {i : ℤ} {b : Scalar S} : Built (.v a) → a.atVec i = .ok b → Built (.s b)
  | toPoly {a : Scalar S} : Built (.s a) → Built (.s (.poly a.toPoly))
  | toMono {a : Scalar S} {q : Mono S} : Built (.s a) → a.toMono = .ok q → Built (.s (.mono q))
  | concretizeVec {l : List (Scalar S)} {b : Vec S} : (∀ a ∈ l, Built (.s a)) →
      concretizeVec l = .ok b → Built (.v b)
  | concretizeV {l : List (Scalar S)} {e : Expr S} : (∀ a ∈ l, Built (.s a)) →
      concretizeV l = .ok e → Built e
  | concretizeMat {g : List (List (Scalar S))} {b : Mat S} : (∀ row ∈ g, ∀ a ∈ row, Built (.s a)) →
      (∃ row ∈ g, row ≠ []) → concretizeMat g = .ok b → Built (.m b)
  | concretizeM {g : List (List (Scalar S))} {e : Expr S} : (∀ row ∈ g, ∀ a ∈ row, Built (.s a)) →
      (∃ row ∈ g, row ≠ []) → concretizeM g = .ok e → Built e
  | substitute {a e : Expr S} {v : Var S} {s : Scalar S} : Built a → v.OK → Built (.s s) →
      a.substitute v s = .ok e → Built e
  | substMap {a e : Expr S} {sm : SubMap S} : Built a → (∀ kv ∈ sm, kv.1.OK) →
      (∀ kv ∈ sm, Built (.s kv.2)) → a.substMap sm = .ok e → Built e
  | derivative {a e : Expr S} {v : Var S} : Built a → v.OK → a.derivative v = .ok e → Built e

/-! ## One lemma per function -/

theorem kvec_nice {l : List S} (h : l ≠ []) : (Expr.v (.k l)).Nice := (kvec_flat h).1

theorem vec_nice {l : Vec S} (h : l.entries ≠ []) (hc : ∀ x ∈ l.entries, x.Canon) :
    (Expr.v l).Nice := by
  refine ⟨vec_canon_iff.mpr hc, l.entries.length, 1, List.length_pos_of_ne_nil h, by decide, ?_, ?_⟩
  · simp [Expr.grid]
  · intro row hrow
    obtain ⟨x, -, rfl⟩ := List.mem_map.mp hrow
    rfl

theorem Expr.Nice.check {e : Expr S} (h : e.Nice) : e.check = .ok () := by
  obtain ⟨h1, r, c, h2, -, h3⟩ := h
  exact (nice_check h1 h3 h2).1

theorem means_nice {x : Arg S} {y : Expr S} (h : x.Means y) : y.Nice := h.nice

theorem again_nice {x : Go (Expr S)} (h : Go.Post x Expr.Nice) : Go.Post (again x) Expr.Nice :=
  h.bind fun _ h => h.simp

theorem kvPlusF64_nice {l : List S} (hl : l ≠ []) {d : S} : Go.Post (kvPlusF64 l d) Expr.Nice := by
  unfold kvPlusF64
  split
  · exact Go.post_bind' fun _ _ => Go.post_pure (flat_s (a := .k _) trivial).1
  · refine Go.Post.bind (P := fun o => o ≠ []) (fun o ho => ?_) fun o ho => again_nice
      (plus_nice (kvec_nice hl) (kvec_nice (by simpa using ho)))
    unfold newVecDense at ho
    split at ho
    · cases ho
    · rename_i hn
      rintro rfl
      exact hn (Except.ok.inj ho)

theorem plusArg_nice {a y : Expr S} {x : Arg S} (ha : a.Nice) (hx : x.Means y) :
    Go.Post (a.plusArg x) Expr.Nice := by
  have hy := plus_nice ha (means_nice hx)
  have hg := again_nice hy
  have hkv : ∀ l, a = .v (.k l) → l ≠ [] := by
    rintro l rfl rfl
    obtain ⟨-, r, c, hr, -, hs⟩ := ha
    have := hs.1
    simp [Expr.grid, Vec.entries] at this
    omega
  rcases a with (_ | _ | _ | _) | (_ | _ | _ | _) | (_ | _ | _ | _) <;> cases hx <;>
    first
    | exact hy
    | exact Go.post_bind' fun _ _ => hg
    | exact Go.post_bind' fun _ _ => Go.post_throw
    | exact Go.post_bind' fun _ _ => Go.post_bind' fun _ _ => hg
    | exact Go.post_bind' fun _ _ => Go.post_bind' fun _ _ => Go.post_throw
    | exact Go.post_bind' fun _ _ => Go.post_bind' fun _ _ => Go.post_bind' fun _ _ => hy
    | exact Go.post_bind' fun _ _ => Go.post_bind' fun _ _ => Go.post_bind' fun _ _ => hg
    | exact Go.post_bind' fun _ _ => Go.post_bind' fun _ _ => Go.post_bind' fun _ _ => again_nice hg
    | exact Go.post_bind' fun _ _ => Go.post_bind' fun _ _ => Go.post_bind' fun _ _ => Go.post_throw
    | exact Go.post_bind' fun _ _ => Go.post_bind' fun _ _ => Go.post_bind' fun _ _ =>
        kvPlusF64_nice (hkv _ rfl)

theorem minusArg_nice {a y : Expr S} {x : Arg S} (ha : a.Nice) (hx : x.Means y) :
    Go.Post (a.minusArg x) Expr.Nice := by
  have hy := minus_nice ha (means_nice hx)
  cases hx
  case int => exact Go.post_bind' fun _ _ => Go.post_throw
  all_goals exact hy

theorem kvExpr_nice {l : List S} (h : l ≠ []) : (kvExpr l).Nice := by
  unfold kvExpr
  split
  · exact (flat_s (a := .k _) trivial).1
  · exact kvec_nice h

theorem kmMulVecDense_nice {rows : List (List S)} (ha : (Expr.m (.k rows)).Nice) {l : List S} :
    Go.Post (kmMulVecDense rows l) Expr.Nice := by
  obtain ⟨-, r, c, hr, hc, hs⟩ := ha
  refine (kToDense_post hs hr hc).bind fun ks hks => Go.post_bind' fun _ _ => ?_
  split
  · exact Go.post_throw
  dsimp only
  split
  · exact Go.post_bind' fun _ _ => Go.post_pure (flat_s (a := .k _) trivial).1
  · refine Go.post_pure (kvec_nice fun h => ?_)
    have := congrArg List.length h
    simp [hks.1] at this
    omega

theorem kmMulDense_nice {rows r : List (List S)} (ha : (Expr.m (.k rows)).Nice)
    (hb : (Expr.m (.k r)).Nice) : Go.Post (kmMulDense rows r) Expr.Nice := by
  obtain ⟨-, m, n, hm, hn, hs⟩ := ha
  obtain ⟨-, m', n', hm', hn', hs'⟩ := hb
  have hd : rowDims r = .ok (m', n') := by
    obtain ⟨h1, h2⟩ := rows_len (f := Scalar.k) rfl hs'
    cases r with
    | nil => simp at h1; omega
    | cons row r =>
      have h3 := h2 row (by simp)
      simp only [List.length_cons] at h1
      simp [rowDims, Go.pure_eq, h1, h3]
  refine (kToDense_post hs hm hn).bind fun ks hks => Go.post_bind' fun _ _ => ?_
  simp only [hd, Go.ok_bind]
  have hp : Arr m n' (fun _ _ _ => True) (ks.map fun row => (List.range n').map fun j =>
      dot row (r.map fun q => q.getD j GoNum.zero)) :=
    LArr.map hks fun _ _ _ _ => LArr.of_all (by simp) fun _ _ _ _ => trivial
  split
  · exact Go.post_throw
  split
  · exact Go.post_bind' fun _ _ => Go.post_pure (flat_s (a := .k _) trivial).1
  split
  · refine (post_mapM_len (Q := fun _ => True) fun _ _ _ _ => trivial).bind fun o ho =>
      Go.post_pure (kvec_nice fun h => ?_)
    have h1 := ho.1
    rw [hp.1, h] at h1
    simp at h1
    omega
  · exact Go.post_pure (nice_m (f := Scalar.k) rfl hm hn' (hp.mono fun _ _ _ _ _ _ => trivial))

theorem mulArg_nice {a y : Expr S} {x : Arg S} (ha : a.Nice) (hx : x.Means y) :
    Go.Post (a.mulArg x) Expr.Nice := by
  have hb := means_nice hx
  have hy := mul_nice ha hb
  have hg := again_nice hy
  rcases a with (_ | _ | _ | _) | (_ | _ | _ | _) | (_ | _ | _ | _) <;> cases hx <;>
    first
    | exact mulF64_nice ha _
    | exact hy
    | exact Go.post_throw
    | exact Go.post_bind' fun _ _ => Go.post_throw
    | exact Go.post_bind' fun _ _ => Go.post_bind' fun _ _ => hy
    | exact Go.post_bind' fun _ _ => Go.post_bind' fun _ _ => hg
    | exact Go.post_bind' fun _ _ => Go.post_bind' fun _ _ => again_nice hg
    | exact Go.post_bind' fun _ _ => Go.post_bind' fun _ _ => Go.post_throw
    | exact Go.post_bind' fun _ _ => Go.post_bind' fun _ _ => Go.post_bind' fun _ _ => hg
    | exact Go.post_bind' fun _ _ => Go.post_bind' fun _ _ => Go.post_bind' fun _ _ => again_nice hg
    | exact Go.post_bind' fun _ _ => Go.post_bind' fun _ _ => Go.post_bind' fun _ _ => Go.post_throw
    | exact Go.post_bind' fun _ _ => Go.post_bind' fun _ _ => Go.post_bind' fun _ _ =>
        again_nice (kmMulVecDense_nice ha)
    | exact Go.post_bind' fun _ _ => Go.post_bind' fun _ _ => Go.post_bind' fun _ _ =>
        again_nice (kmMulDense_nice ha hb)
    | exact Go.post_bind' fun _ _ => Go.post_bind' fun _ _ => Go.post_bind' fun _ _ =>
        again_nice (again_nice (kmMulDense_nice ha hb))

theorem Go.post_of_ok {α : Type} {x : Go α} {Q : α → Prop} (h : ∃ a, x = .ok a ∧ Q a) : Go.Post x Q := by
  obtain ⟨a, h1, h2⟩ := h
  intro b hb
  rw [h1, Except.ok.injEq] at hb
  exact hb ▸ h2

theorem power_canon {a : Scalar S} (ha : a.Canon) {n : ℤ} : Go.Post (a.power n) Scalar.Canon := by
  by_cases hn : 0 ≤ n
  · obtain ⟨b, h1, h2, -⟩ := power_total ha hn
    exact Go.post_of_ok ⟨b, h1, h2⟩
  · rw [power_negative ha (by omega)]
    exact fun _ h => by cases h

theorem vpower_canon {a : Vec S} (ha : (Expr.v a).Canon) {n : ℤ} :
    Go.Post (a.power n) Scalar.Canon := by
  unfold Vec.power
  refine Go.post_bind' fun _ _ => ?_
  dsimp only
  split
  · exact fun _ h => by cases h
  refine Go.post_bind' fun _ _ => ?_
  split
  · exact fun _ h => by cases h
  exact Go.post_foldlM (I := Scalar.Canon) trivial fun _ _ acc hacc =>
    Vec.atVec_mem.bind fun y hy => Scalar.mul_canon hacc (vec_canon ha y hy)

theorem identity_shape (n : ℕ) : (Expr.m (.k (identityRows n : List (List S)))).Shape n n := by
  refine ⟨by simp [Expr.grid, Mat.entries, identityRows], fun row hrow => ?_⟩
  simp only [Expr.grid, Mat.entries, identityRows, List.map_map, List.mem_map] at hrow
  obtain ⟨i, -, rfl⟩ := hrow
  simp

theorem mpower_nice {a : Mat S} (ha : (Expr.m a).Nice) {n : ℤ} :
    Go.Post (a.power n) (fun b => (Expr.m b).Nice) := by
  unfold Mat.power
  refine Go.post_bind' fun _ _ => Go.post_bind' fun d _ => ?_
  dsimp only
  split
  · exact fun _ h => by cases h
  split
  · exact fun _ h => by cases h
  split
  · exact fun _ h => by cases h
  rename_i h0
  have hd : 0 < d.1 := Nat.pos_of_ne_zero h0
  refine (kmPlus_nice (identity_shape d.1) hd hd (flat_s (a := .k _) trivial).1.1).bind fun e he => ?_
  cases e with
  | m b =>
    refine Go.post_foldlM (I := fun b => (Expr.m b).Nice) he fun _ _ acc hacc =>
      (matMul_nice hacc ha).bind fun e he => ?_
    cases e with
    | m b => exact Go.post_pure he
    | s _ => exact Go.post_throw
    | v _ => exact Go.post_throw
  | s _ => exact fun _ h => by cases h
  | v _ => exact fun _ h => by cases h

theorem transpose_nice {a : Expr S} (ha : a.Nice) : Go.Post a.transpose Expr.Nice := by
  obtain ⟨h1, r, c, hr, hc, hs⟩ := ha
  obtain ⟨e, h2, h3, h4, -⟩ := transpose_entry hr hc h1 hs
  exact Go.post_of_ok ⟨e, h2, h4, c, r, hc, hr, h3⟩

theorem at_canon {a : Expr S} (ha : a.Nice) {i j : ℤ} : Go.Post (a.at i j) Scalar.Canon := by
  obtain ⟨h1, r, c, hr, hc, hs⟩ := ha
  intro x hx
  obtain ⟨-, -, -, -, h⟩ := (at_ok_iff hr hc h1 hs i j x).mp hx
  unfold Expr.entry at h
  cases h2 : a.grid[i.toNat]? with
  | none => rw [h2] at h; simp at h
  | some row =>
    rw [h2] at h
    exact h1 row (List.mem_of_getElem? h2) x (List.mem_of_getElem? h)

theorem rows_shape {g : List (List (Scalar S))} {b : Mat S} (h : concretizeMat g = .ok b)
    (hne : ∃ row ∈ g, row ≠ []) : ∃ r c, 0 < r ∧ 0 < c ∧ g.length = r ∧ ∀ row ∈ g, row.length = c := by
  obtain ⟨row, hrow, hne⟩ := hne
  refine ⟨g.length, row.length, List.length_pos_of_mem hrow, List.length_pos_of_ne_nil hne, rfl,
    fun row' hrow' => ?_⟩
  by_contra hl
  obtain ⟨x, hx⟩ := concretizeMat_ragged (rows := g) (Or.inr ⟨row', hrow', row, hrow, hl⟩)
  rw [h] at hx
  cases hx

theorem table_arr {g : List (List (Scalar S))} (h1 : g.length = r) (h2 : ∀ row ∈ g, row.length = c)
    (h : ∀ row ∈ g, ∀ a ∈ row, a.Canon) : Arr r c (fun _ _ => Scalar.Canon) g :=
  LArr.of_all h1 fun _ row _ hrow => LArr.of_all (h2 row hrow) fun _ a _ ha => h row hrow a ha

theorem hstack_nice {es : List (Expr S)} (h : ∀ a ∈ es, a.Nice) : Go.Post (hstack es) Expr.Nice := by
  by_cases hne : es = []
  · subst hne
    exact fun _ h => by cases h
  by_cases hd : ∃ e ∈ es, ∃ e' ∈ es, e.grid.length ≠ e'.grid.length
  · rw [hstack_dimension (fun e he => by
      obtain ⟨h1, r, c, hr, hc, hs⟩ := h e he
      exact ⟨h1, r, c, hr, hs⟩) hd]
    exact fun _ h => by cases h
  · push Not at hd
    obtain ⟨e0, es', rfl⟩ := List.exists_cons_of_ne_nil hne
    obtain ⟨-, r, c, hr, hc, hs⟩ := h e0 (by simp)
    have h' : ∀ e ∈ e0 :: es', e.Canon ∧ ∃ c, 0 < c ∧ e.Shape r c := fun e he => by
      obtain ⟨h1', r', c', hr', hc', hs'⟩ := h e he
      have : r' = r := hs'.1.symm.trans ((hd e he e0 (by simp)).trans hs.1)
      exact ⟨h1', c', hc', this ▸ hs'⟩
    have hsum : 0 < ((e0 :: es').map Expr.width).sum := by
      rw [List.map_cons, List.sum_cons, hs.width hr]
      omega
    rw [hstack_eq hne hr h']
    refine concretizeM_nice hr hsum (table_arr (by simp) (fun row hrow => ?_) fun row hrow a ha => ?_)
    · obtain ⟨i, hi, rfl⟩ := List.mem_map.mp hrow
      rw [List.length_flatten, List.map_map]
      congr 1
      refine List.map_congr_left fun e he => ?_
      obtain ⟨-, c, -, h3⟩ := h' e he
      rw [h3.width hr, Function.comp, List.getElem?_eq_getElem (by rw [h3.1]; exact List.mem_range.mp hi),
        Option.getD_some]
      exact h3.2 _ (List.getElem_mem _)
    · obtain ⟨i, hi, rfl⟩ := List.mem_map.mp hrow
      obtain ⟨row', h5, h6⟩ := List.mem_flatten.mp ha
      obtain ⟨e, h7, rfl⟩ := List.mem_map.mp h5
      obtain ⟨h8, c, -, h9⟩ := h' e h7
      rw [List.getElem?_eq_getElem (by rw [h9.1]; exact List.mem_range.mp hi), Option.getD_some] at h6
      exact h8 _ (List.getElem_mem _) a h6

theorem vstack_nice {es : List (Expr S)} (h : ∀ a ∈ es, a.Nice) : Go.Post (vstack es) Expr.Nice := by
  by_cases hne : es = []
  · subst hne
    exact fun _ h => by cases h
  by_cases hd : ∃ e ∈ es, ∃ e' ∈ es, e.width ≠ e'.width
  · rw [vstack_dimension (fun e he => by
      obtain ⟨h1, r, c, hr, hc, hs⟩ := h e he
      exact ⟨h1, r, c, hr, hs⟩) hd]
    exact fun _ h => by cases h
  · push Not at hd
    obtain ⟨e0, es', rfl⟩ := List.exists_cons_of_ne_nil hne
    obtain ⟨-, r, c, hr, hc, hs⟩ := h e0 (by simp)
    have h' : ∀ e ∈ e0 :: es', e.Canon ∧ ∃ r, 0 < r ∧ e.Shape r c := fun e he => by
      obtain ⟨h1', r', c', hr', hc', hs'⟩ := h e he
      have : c' = c := (hs'.width hr').symm.trans ((hd e he e0 (by simp)).trans (hs.width hr))
      exact ⟨h1', r', hr', this ▸ hs'⟩
    have hsum : 0 < ((e0 :: es').map fun b => b.grid.length).sum := by
      rw [List.map_cons, List.sum_cons, hs.1]
      omega
    rw [vstack_eq hne hc h']
    refine concretizeM_nice hsum hc (table_arr (by rw [List.length_flatten, List.map_map]; rfl)
      (fun row hrow => ?_) fun row hrow a ha => ?_)
    · obtain ⟨g, h5, h6⟩ := List.mem_flatten.mp hrow
      obtain ⟨e, h7, rfl⟩ := List.mem_map.mp h5
      obtain ⟨-, r, -, h9⟩ := h' e h7
      exact h9.2 row h6
    · obtain ⟨g, h5, h6⟩ := List.mem_flatten.mp hrow
      obtain ⟨e, h7, rfl⟩ := List.mem_map.mp h5
      exact (h' e h7).1 row h6 a ha

theorem derivPoly_canon {p : Poly S} (hp : (Scalar.poly p).Canon) {v : Var S} (hv : v.OK) :
    Go.Post (p.derivPoly v) (fun q => (Scalar.poly q).Canon) := by
  obtain ⟨x, h1, h2, -⟩ := derivative_total (e := .poly p) hp hv
  refine (Go.post_of_ok (Q := Scalar.Canon) ⟨x, h1, h2⟩).bind fun y hy => ?_
  cases y with
  | poly q => exact Go.post_pure hy
  | _ => exact Go.post_throw

theorem derivative_nice {a : Expr S} (ha : a.Nice) {v : Var S} (hv : v.OK) :
    Go.Post (a.derivative v) Expr.Nice := by
  by_cases hd : a.DerivDirect
  · obtain ⟨h1, r, c, hr, hc, hs⟩ := ha
    obtain ⟨e, h2, h3, h4, -⟩ := derivative_array_total hr hc h1 hs hd hv
    exact Go.post_of_ok ⟨e, h2, h4, r, c, hr, hc, h3⟩
  · obtain ⟨h1, r, c, hr, hc, hs⟩ := ha
    rcases a with (_ | _ | _ | _) | (_ | _ | l | l) | (_ | _ | _ | g)
    case v.m =>
      have hl : 0 < l.length := by
        have := hs.1
        simp [Expr.grid, Vec.entries] at this
        omega
      obtain ⟨b, h2, h3, h4⟩ := derivative_monoVec_total hl (fun m hm =>
        vec_canon h1 _ (List.mem_map_of_mem hm)) hv
      exact (Go.post_of_ok (Q := fun b => (Expr.v b).Nice) ⟨b, h2, h4, _, 1, hl, by decide, h3⟩).bind
        fun _ h => Go.post_pure h
    case v.p =>
      have hl : l ≠ [] := by
        rintro rfl
        have := hs.1
        simp [Expr.grid, Vec.entries] at this
        omega
      refine Go.Post.bind (P := fun b => (Expr.v b).Nice) ?_ fun _ h => Go.post_pure h
      refine (Go.post_mapM (Q := fun q => (Scalar.poly q).Canon) fun p hp =>
        derivPoly_canon (vec_canon h1 _ (List.mem_map_of_mem hp)) hv).bind fun q hq => Go.post_pure ?_
      refine vec_nice (l := .p q) ?_ fun x hx => ?_
      · intro h
        have h2 := congrArg List.length h
        simp [Vec.entries] at h2
        rw [h2] at hq
        exact hl (List.length_eq_zero_iff.mp hq.1.symm)
      · obtain ⟨y, hy, rfl⟩ := List.mem_map.mp hx
        exact hq.2 y hy
    case m.p =>
      refine Go.Post.bind (P := fun b => (Expr.m b).Nice) ?_ fun _ h => Go.post_pure h
      refine Go.post_bind' fun _ _ => Go.post_bind' fun _ _ => ?_
      have hA := grid_arr (f := Scalar.poly) (by simpa [Expr.grid, Mat.entries] using hs.1) hs.2
      refine (post_mapM2 (Q := fun q => (Scalar.poly q).Canon) hA fun p ⟨row, h3, h4⟩ => ?_).bind
        fun g' hg' => Go.post_pure (nice_m (f := Scalar.poly) rfl hr hc hg')
      exact derivPoly_canon (h1 _ (List.mem_map_of_mem h3) _ (List.mem_map_of_mem h4)) hv
    all_goals exact absurd trivial hd

/-- C50: every expression that can be built is well formed and not empty. -/
theorem built_nice {e : Expr S} (h : Built e) : e.Nice := by
  induction h with
  | k d => exact (flat_s (a := .k d) trivial).1
  | kvec l h => exact kvec_nice h
  | kmat rows r c hr hc h1 h2 =>
    exact nice_m (f := Scalar.k) rfl hr hc
      (LArr.of_all h1 fun _ row _ hrow => LArr.of_all (h2 row hrow) fun _ _ _ _ => trivial)
  | var v h => exact (flat_s (a := .var v) h).1
  | vvec l h hv =>
    refine vec_nice (l := .v l) (by simpa [Vec.entries] using h) fun x hx => ?_
    obtain ⟨v, hv', rfl⟩ := List.mem_map.mp hx
    exact hv v hv'
  | vmat rows r c hr hc h1 h2 hv =>
    exact nice_m (f := Scalar.var) rfl hr hc
      (LArr.of_all h1 fun _ row _ hrow => LArr.of_all (h2 row hrow) fun _ v _ hv' => hv row hrow v hv')
  | plus _ _ h ha hb => exact plus_nice ha hb _ h
  | minus _ _ h ha hb => exact minus_nice ha hb _ h
  | mul _ _ h ha hb => exact mul_nice ha hb _ h
  | plusArg _ hx h ha => exact plusArg_nice ha hx _ h
  | minusArg _ hx h ha => exact minusArg_nice ha hx _ h
  | mulArg _ hx h ha => exact mulArg_nice ha hx _ h
  | power _ h ha => exact (flat_s (power_canon (simple_s ha.1) _ h)).1
  | vpower _ h ha => exact (flat_s (vpower_canon ha.1 _ h)).1
  | mpower _ h ha => exact mpower_nice ha _ h
  | transpose _ h ha => exact transpose_nice ha _ h
  | simplify _ h ha => exact ha.simp _ h
  | hstack _ h ha => exact hstack_nice ha _ h
  | vstack _ h ha => exact vstack_nice ha _ h
  | «at» _ h ha => exact (flat_s (at_canon ha _ h)).1
  | atVec _ h ha => exact (flat_s (vec_canon ha.1 _ (Vec.atVec_mem _ h))).1
  | toPoly _ ha =>
    exact (flat_s (good_iff.mp (good_toPoly (good_of_univ (simple_s ha.1)))).1).1
  | toMono _ h ha =>
    exact (flat_s (good_iff.mp (good_toMono (good_of_univ (simple_s ha.1)) h)).1).1
  | concretizeVec _ h ha => exact concretizeVec_nice (fun x hx => simple_s (ha x hx).1) _ h
  | concretizeV _ h ha => exact concretizeV_nice (fun x hx => simple_s (ha x hx).1) _ h
  | concretizeMat _ hne h ha =>
    obtain ⟨r, c, hr, hc, h1, h2⟩ := rows_shape h hne
    exact concretizeMat_nice hr hc (table_arr h1 h2 fun row hrow x hx => simple_s (ha row hrow x hx).1) _ h
  | concretizeM _ hne h ha =>
    obtain ⟨b, hb, -⟩ := Go.bind_eq_ok.mp h
    obtain ⟨r, c, hr, hc, h1, h2⟩ := rows_shape hb hne
    exact concretizeM_nice hr hc (table_arr h1 h2 fun row hrow x hx => simple_s (ha row hrow x hx).1) _ h
  | substitute _ hv _ h ha hs =>
    obtain ⟨h1, r, c, hr, hc, hsh⟩ := ha
    obtain ⟨e, h2, h3, h4, -⟩ := substitute_array_total hr h1 hsh hv (simple_s hs.1)
    exact Go.post_of_ok (Q := Expr.Nice) ⟨e, h2, h4, r, c, hr, hc, h3⟩ _ h
  | substMap _ hv _ h ha hs =>
    obtain ⟨h1, r, c, hr, hc, hsh⟩ := ha
    obtain ⟨e, h2, h3, h4, -⟩ := substMap_array_total hr h1 hsh
      fun kv hkv => ⟨hv kv hkv, simple_s (hs kv hkv).1⟩
    exact Go.post_of_ok (Q := Expr.Nice) ⟨e, h2, h4, r, c, hr, hc, h3⟩ _ h
  | derivative _ hv h ha => exact derivative_nice ha hv _ h

/-- C50: `Check` accepts every expression that can be built. -/
theorem built_check {e : Expr S} (h : Built e) : e.check = .ok () := (built_nice h).check

/-- C50, in terms of the specification. -/
theorem built_wellFormed {e : Expr S} (h : Built e) : e.Canon ∧ ∃ r c, 0 < r ∧ 0 < c ∧ e.Shape r c :=
  built_nice h

/-- C50 is false without the condition that a table has an entry: `ConcretizeMatrixExpression` of a
table whose rows are empty returns a variable matrix without columns
(`symbolic/matrix_expression.go:304-329`, `isAllVariables` stays true). -/
theorem concretizeMat_noColumns_false :
    concretizeMat ([[], []] : List (List (Scalar ℚ))) = .ok (.v [[], []]) ∧
      ¬ (Expr.m (.v ([[], []] : List (List (Var ℚ))))).Nice := by
  refine ⟨by decide +kernel, ?_⟩
  rintro ⟨-, r, c, hr, hc, h1, h2⟩
  have := h2 [] (by simp [Expr.grid, Mat.entries])
  simp at this
  omega

/-- A program: `x + y`, stacked beside `y * 3`, transposed, with 2 in place of `x`. -/
def wprog : Go (Expr ℚ) := do
  let a ← (Expr.s (.var wx)).plus (.s (.var wy))
  let b ← (Expr.s (.var wy)).mulArg (.f64 3)
  let c ← hstack [a, b]
  let d ← c.transpose
  d.substitute wx (.k 2)

example : wprog.isOk = true := by decide +kernel

example {e : Expr ℚ} (h : wprog = .ok e) : Built e := by
  obtain ⟨a, h1, h⟩ := Go.bind_eq_ok.mp h
  obtain ⟨b, h2, h⟩ := Go.bind_eq_ok.mp h
  obtain ⟨c, h3, h⟩ := Go.bind_eq_ok.mp h
  obtain ⟨d, h4, h⟩ := Go.bind_eq_ok.mp h
  have hx : Built (Expr.s (.var wx)) := .var _ (wv_ok 0)
  have hy : Built (Expr.s (.var wy)) := .var _ (wv_ok 1)
  refine .substitute (.transpose (.hstack (fun y hy' => ?_) h3) h4) (wv_ok 0) (.k 2) h
  rcases List.mem_cons.mp hy' with rfl | hy'
  · exact .plus hx hy h1
  · rw [List.mem_singleton.mp hy']
    exact .mulArg hy (.f64 3) h2

end Verif
