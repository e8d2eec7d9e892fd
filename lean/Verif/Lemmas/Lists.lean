import Mathlib.Data.List.Nodup
import Mathlib.Data.List.Basic
import Mathlib.Tactic.Common
import Verif.Model.Scalar

/-! # Lemmas about `findVar` and `uniqueVars`, and a small Hoare logic for `Go` -/

namespace Verif

variable {R : Type}

/-! ## `Go` -/

/-- `x` returns normally with a value satisfying `P`. -/
def Go.Ok {α : Type} (x : Go α) (P : α → Prop) : Prop := ∃ a, x = .ok a ∧ P a

theorem Go.ok_bind {α β : Type} (a : α) (f : α → Go β) : (Except.ok a : Go α) >>= f = f a := rfl

theorem Go.pure_eq {α : Type} (a : α) : (pure a : Go α) = .ok a := rfl

theorem Go.err_bind {α β : Type} (e : Err) (f : α → Go β) :
    (Except.error e : Go α) >>= f = .error e := rfl

theorem Go.throw_eq {α : Type} (e : Err) : (throw e : Go α) = .error e := rfl

theorem Go.bind_eq_ok {α β : Type} {x : Go α} {f : α → Go β} {b : β} :
    x >>= f = .ok b ↔ ∃ a, x = .ok a ∧ f a = .ok b := by
  cases x with
  | ok a => simp [Go.ok_bind]
  | error e => simp [Go.err_bind]

theorem Go.Ok.bind {α β : Type} {x : Go α} {f : α → Go β} {P : α → Prop} {Q : β → Prop}
    (hx : Go.Ok x P) (hf : ∀ a, P a → Go.Ok (f a) Q) : Go.Ok (x >>= f) Q := by
  obtain ⟨a, rfl, ha⟩ := hx
  exact hf a ha

theorem Go.Ok.mono {α : Type} {x : Go α} {P Q : α → Prop} (hx : Go.Ok x P)
    (h : ∀ a, P a → Q a) : Go.Ok x Q := by
  obtain ⟨a, e, ha⟩ := hx
  exact ⟨a, e, h a ha⟩

theorem Go.ok_ok {α : Type} {a : α} {P : α → Prop} (h : P a) : Go.Ok (Except.ok a) P := ⟨a, rfl, h⟩

theorem Go.ok_pure {α : Type} {a : α} {P : α → Prop} (h : P a) : Go.Ok (pure a) P := ⟨a, rfl, h⟩

theorem Go.Ok.and {α : Type} {x : Go α} {P Q : α → Prop} (hx : Go.Ok x P)
    (h : ∀ a, x = .ok a → Q a) : Go.Ok x (fun a => P a ∧ Q a) := by
  obtain ⟨a, e, ha⟩ := hx
  exact ⟨a, e, ha, h a e⟩

/-- Invariant rule for `foldlM`. -/
theorem Go.foldlM_ok {α β : Type} (f : β → α → Go β) (I : β → Prop) (l : List α) (b : β)
    (hb : I b) (hf : ∀ b a, a ∈ l → I b → Go.Ok (f b a) I) : Go.Ok (l.foldlM f b) I := by
  induction l generalizing b with
  | nil => exact ⟨b, rfl, hb⟩
  | cons a l ih =>
    rw [List.foldlM_cons]
    refine (hf b a (by simp) hb).bind (fun b' hb' => ih b' hb' ?_)
    intro b'' a' ha' hb''
    exact hf b'' a' (by simp [ha']) hb''

/-- Prefix-indexed invariant rule for `foldlM`. -/
theorem Go.foldlM_ok' {α β : Type} (f : β → α → Go β) (I : List α → β → Prop) (l : List α) (b : β)
    (hb : I [] b) (hf : ∀ pre a b, (∃ post, l = pre ++ a :: post) → I pre b →
      Go.Ok (f b a) (I (pre ++ [a]))) : Go.Ok (l.foldlM f b) (I l) := by
  suffices h : ∀ pre suf b, l = pre ++ suf → I pre b → Go.Ok (suf.foldlM f b) (I l) from
    h [] l b rfl hb
  intro pre suf
  induction suf generalizing pre with
  | nil =>
    intro b e hI
    rw [List.append_nil] at e
    exact ⟨b, rfl, e ▸ hI⟩
  | cons a suf ih =>
    intro b e hI
    rw [List.foldlM_cons]
    refine (hf pre a b ⟨suf, e⟩ hI).bind (fun b' hb' => ih (pre ++ [a]) b' ?_ hb')
    simp [e]

theorem Go.mapM_ok {α β : Type} (f : α → Go β) (Q : α → β → Prop) (l : List α)
    (hf : ∀ a ∈ l, Go.Ok (f a) (Q a)) : Go.Ok (l.mapM f) (fun r => List.Forall₂ Q l r) := by
  induction l with
  | nil => exact ⟨[], by simp [Go.pure_eq], List.Forall₂.nil⟩
  | cons a l ih =>
    rw [List.mapM_cons]
    refine (hf a (by simp)).bind (fun b hb => ?_)
    refine (ih (fun a' ha' => hf a' (by simp [ha']))).bind (fun bs hbs => ?_)
    exact Go.ok_pure (List.Forall₂.cons hb hbs)

theorem Go.forM_ok {α : Type} (f : α → Go Unit) (l : List α) (h : ∀ a ∈ l, f a = .ok ()) :
    l.forM f = .ok () := by
  induction l with
  | nil => rfl
  | cons a l ih =>
    rw [List.forM_eq_forM, List.forM_cons, h a (by simp), Go.ok_bind, ← List.forM_eq_forM]
    exact ih (fun a' ha' => h a' (by simp [ha']))

theorem Go.forM_ok_iff {α : Type} (f : α → Go Unit) (l : List α) :
    l.forM f = .ok () ↔ ∀ a ∈ l, f a = .ok () := by
  induction l with
  | nil => simp [Go.pure_eq]
  | cons a l ih =>
    rw [List.forM_eq_forM, List.forM_cons, Go.bind_eq_ok, ← List.forM_eq_forM]
    constructor
    · rintro ⟨⟨⟩, h1, h2⟩ x hx
      rcases List.mem_cons.mp hx with rfl | hx
      · exact h1
      · exact ih.mp h2 x hx
    · intro h
      exact ⟨(), h a (by simp), ih.mpr (fun x hx => h x (by simp [hx]))⟩

/-! ## findVar -/

theorem findVar_eq_none {x : Var R} {l : List (Var R)} :
    findVar x l = none ↔ x.id ∉ l.map (·.id) := by
  induction l with
  | nil => simp [findVar]
  | cons y ys ih =>
    unfold findVar
    cases h : findVar x ys with
    | some i =>
      simp only [h, reduceCtorEq, false_iff, not_not] at ih ⊢
      simp [ih]
    | none =>
      rw [h] at ih
      simp only [true_iff] at ih
      by_cases hx : x.id = y.id
      · simp [hx]
      · simpa [hx] using ih

theorem findVar_some {x : Var R} {l : List (Var R)} {i : Nat} (h : findVar x l = some i) :
    ∃ v, l[i]? = some v ∧ v.id = x.id := by
  induction l generalizing i with
  | nil => simp [findVar] at h
  | cons y ys ih =>
    unfold findVar at h
    cases h' : findVar x ys with
    | some j =>
      simp only [h', Option.some.injEq] at h
      obtain ⟨v, hv, e⟩ := ih h'
      exact ⟨v, by rw [← h]; simpa using hv, e⟩
    | none =>
      simp only [h'] at h
      by_cases hx : x.id = y.id
      · simp only [hx, if_true, Option.some.injEq] at h
        exact ⟨y, by rw [← h]; simp, hx.symm⟩
      · simp [hx] at h

theorem findVar_lt {x : Var R} {l : List (Var R)} {i : Nat} (h : findVar x l = some i) :
    i < l.length := by
  obtain ⟨v, hv, -⟩ := findVar_some h
  by_contra hc
  rw [List.getElem?_eq_none (by omega)] at hv
  exact absurd hv (by simp)

theorem findVar_isSome {x : Var R} {l : List (Var R)} (h : x.id ∈ l.map (·.id)) :
    ∃ i, findVar x l = some i := by
  cases h' : findVar x l with
  | none => exact absurd h (findVar_eq_none.mp h')
  | some i => exact ⟨i, rfl⟩

/-! ## uniqueVars -/

theorem uniqueStep_cases (out : List (Var R)) (v : Var R) :
    (v.id ∉ out.map (·.id) ∧ uniqueStep out v = out ++ [v]) ∨
    (v.id ∈ out.map (·.id) ∧ uniqueStep out v = out) := by
  unfold uniqueStep
  cases h : findVar v out with
  | none => exact Or.inl ⟨findVar_eq_none.mp h, rfl⟩
  | some i =>
    refine Or.inr ⟨?_, rfl⟩
    by_contra hc
    rw [findVar_eq_none.mpr hc] at h
    exact absurd h (by simp)

theorem uniqueFold_spec (l acc : List (Var R)) (hacc : (acc.map (·.id)).Nodup) :
    ((l.foldl uniqueStep acc).map (·.id)).Nodup ∧
    (∀ i, i ∈ (l.foldl uniqueStep acc).map (·.id) ↔ i ∈ acc.map (·.id) ∨ i ∈ l.map (·.id)) ∧
    (∀ v ∈ l.foldl uniqueStep acc, v ∈ acc ∨ v ∈ l) ∧
    (∃ t, l.foldl uniqueStep acc = acc ++ t ∧ t.Sublist l) := by
  induction l generalizing acc with
  | nil => simp [hacc]
  | cons v l ih =>
    rw [List.foldl_cons]
    rcases uniqueStep_cases acc v with ⟨hv, e⟩ | ⟨hv, e⟩
    · rw [e]
      have hnd : ((acc ++ [v]).map (·.id)).Nodup := by
        rw [List.map_append, List.nodup_append]
        refine ⟨hacc, by simp, ?_⟩
        intro a ha b hb
        simp only [List.map_cons, List.map_nil, List.mem_singleton] at hb
        rintro rfl
        exact hv (hb ▸ ha)
      obtain ⟨h1, h2, h3, t, ht, hs⟩ := ih (acc ++ [v]) hnd
      refine ⟨h1, ?_, ?_, ?_⟩
      · intro i
        rw [h2 i]
        simp only [List.map_append, List.map_cons, List.map_nil, List.mem_append,
          List.mem_cons]
        tauto
      · intro w hw
        rcases h3 w hw with hw | hw
        · simp only [List.mem_append, List.mem_singleton] at hw
          rcases hw with hw | rfl
          · exact Or.inl hw
          · exact Or.inr (by simp)
        · exact Or.inr (by simp [hw])
      · exact ⟨v :: t, by rw [ht]; simp, hs.cons_cons v⟩
    · rw [e]
      obtain ⟨h1, h2, h3, t, ht, hs⟩ := ih acc hacc
      refine ⟨h1, ?_, ?_, ?_⟩
      · intro i
        rw [h2 i]
        simp only [List.map_cons, List.mem_cons]
        constructor
        · tauto
        · rintro (h | rfl | h)
          · exact Or.inl h
          · exact Or.inl hv
          · exact Or.inr h
      · intro w hw
        rcases h3 w hw with hw | hw
        · exact Or.inl hw
        · exact Or.inr (by simp [hw])
      · exact ⟨t, ht, hs.cons v⟩

theorem uniqueVars_nodup (l : List (Var R)) : ((uniqueVars l).map (·.id)).Nodup :=
  (uniqueFold_spec l [] (by simp)).1

theorem uniqueVars_ids (l : List (Var R)) (i : Nat) :
    i ∈ (uniqueVars l).map (·.id) ↔ i ∈ l.map (·.id) := by
  have := (uniqueFold_spec l [] (by simp)).2.1 i
  simpa [uniqueVars] using this

theorem uniqueVars_sublist (l : List (Var R)) : (uniqueVars l).Sublist l := by
  obtain ⟨t, ht, hs⟩ := (uniqueFold_spec l [] (by simp)).2.2.2
  unfold uniqueVars
  rw [ht]
  simpa using hs

theorem uniqueVars_subset {l : List (Var R)} {v : Var R} (h : v ∈ uniqueVars l) : v ∈ l :=
  (uniqueVars_sublist l).subset h

theorem uniqueFold_of_nodup (l acc : List (Var R)) (h : ((acc ++ l).map (·.id)).Nodup) :
    l.foldl uniqueStep acc = acc ++ l := by
  induction l generalizing acc with
  | nil => simp
  | cons v l ih =>
    rw [List.foldl_cons]
    have hv : v.id ∉ acc.map (·.id) := by
      rw [List.map_append, List.nodup_append] at h
      intro hc
      exact h.2.2 _ hc v.id (by simp) rfl
    rcases uniqueStep_cases acc v with ⟨-, e⟩ | ⟨hv', -⟩
    · rw [e, ih (acc ++ [v]) (by simpa using h)]
      simp
    · exact absurd hv' hv

theorem uniqueVars_of_nodup {l : List (Var R)} (h : (l.map (·.id)).Nodup) : uniqueVars l = l := by
  unfold uniqueVars
  rw [uniqueFold_of_nodup l [] (by simpa using h)]
  simp

end Verif
