import Verif.Props.Program

/-!
# C62: every program of scalar calls returns

Whatever the number type, at any degree: no call panics, and the result is well formed and names no new variable.
-/

namespace Verif

variable {R : Type} [GoNum R]

theorem Prog.run_total {p : Prog R} (hv : ∀ v, p.Names v → v.OK) :
    ∃ e, p.run = .ok e ∧ e.Canon ∧ ∀ w, e.Mentions w → p.Names w := by
  induction p with
  | k c => exact ⟨.k c, rfl, trivial, fun w h => h.elim⟩
  | var v => exact ⟨.var v, rfl, hv v rfl, by rintro w rfl; rfl⟩
  | plus a b iha ihb =>
    obtain ⟨x, hx, cx, nx⟩ := iha fun v h => hv v (.inl h)
    obtain ⟨y, hy, cy, ny⟩ := ihb fun v h => hv v (.inr h)
    obtain ⟨r, r1, r2, r3⟩ := plus_total cx cy
    exact ⟨r, by simp only [Prog.run, hx, hy, Go.ok_bind, r1], r2, fun w hw => (r3 w hw).imp (nx w) (ny w)⟩
  | minus a b iha ihb =>
    obtain ⟨x, hx, cx, nx⟩ := iha fun v h => hv v (.inl h)
    obtain ⟨y, hy, cy, ny⟩ := ihb fun v h => hv v (.inr h)
    obtain ⟨r, r1, r2, r3⟩ := minus_total cx cy
    exact ⟨r, by simp only [Prog.run, hx, hy, Go.ok_bind, r1], r2, fun w hw => (r3 w hw).imp (nx w) (ny w)⟩
  | mul a b iha ihb =>
    obtain ⟨x, hx, cx, nx⟩ := iha fun v h => hv v (.inl h)
    obtain ⟨y, hy, cy, ny⟩ := ihb fun v h => hv v (.inr h)
    obtain ⟨r, r1, r2, r3⟩ := mul_total cx cy
    exact ⟨r, by simp only [Prog.run, hx, hy, Go.ok_bind, r1], r2, fun w hw => (r3 w hw).imp (nx w) (ny w)⟩
  | pow a n iha =>
    obtain ⟨x, hx, cx, nx⟩ := iha hv
    obtain ⟨r, r1, r2, r3⟩ := power_total cx (Int.natCast_nonneg n)
    exact ⟨r, by simp only [Prog.run, hx, Go.ok_bind, r1], r2, fun w hw => nx w (r3 w hw)⟩
  | simp a iha =>
    obtain ⟨x, hx, cx, nx⟩ := iha hv
    obtain ⟨r, r1, r2, r3⟩ := asSimplified_total cx
    exact ⟨r, by simp only [Prog.run, hx, Go.ok_bind, r1], r2, fun w hw => nx w (r3 w hw)⟩
  | deriv a v iha =>
    obtain ⟨x, hx, cx, nx⟩ := iha fun v h => hv v (.inl h)
    obtain ⟨r, r1, r2, r3⟩ := derivative_total cx (hv v (.inr rfl))
    exact ⟨r, by simp only [Prog.run, hx, Go.ok_bind, r1], r2, fun w hw => .inl (nx w (r3 w hw))⟩
  | subst a v s iha ihs =>
    obtain ⟨x, hx, cx, nx⟩ := iha fun v h => hv v (.inl h)
    obtain ⟨y, hy, cy, ny⟩ := ihs fun v h => hv v (.inr (.inr h))
    obtain ⟨r, r1, r2, r3⟩ := substitute_total cx (hv v (.inr (.inl rfl))) cy
    exact ⟨r, by simp only [Prog.run, hx, hy, Go.ok_bind, r1], r2,
      fun w hw => (r3 w hw).elim (fun h => .inl (nx w h)) fun h => .inr (.inr (ny w h))⟩
  | substMap a n key val iha ihs =>
    obtain ⟨x, hx, cx, nx⟩ := iha fun v h => hv v (.inl h)
    have hy' := fun j => ihs j fun v h => hv v (.inr (.inr ⟨j, h⟩))
    choose y hy cy ny using hy'
    have hmem : ∀ kv, kv ∈ (List.finRange n).map (fun j => (key j, y j)) ↔ ∃ j, (key j, y j) = kv := by simp
    have hok : ∀ kv ∈ (List.finRange n).map (fun j => (key j, y j)), kv.1.OK ∧ kv.2.Canon := by
      intro kv hkv
      obtain ⟨j, rfl⟩ := (hmem kv).mp hkv
      exact ⟨hv _ (.inr (.inl ⟨j, rfl⟩)), cy j⟩
    obtain ⟨r, r1, r2⟩ := substMap_total cx hok
    refine ⟨r, ?_, r2, fun w hw => ?_⟩
    · simp only [Prog.run, hx, Go.ok_bind]
      rw [mapM_pairs _ key (g := y) (fun j _ => hy j), Go.ok_bind]
      exact r1
    · rcases substMap_mentions cx hok r1 w hw with h | ⟨kv, hkv, h⟩
      · exact .inl (nx w h)
      · obtain ⟨j, rfl⟩ := (hmem _).mp hkv
        exact .inr (.inr ⟨j, ny j w h⟩)

/-- C62: a program of calls on scalars, of any degree and whatever the number type, does not panic if the variables it names
pass `Check`; its result is well formed and names only variables that the program names. -/
theorem program_total {p : Prog R} (hv : ∀ v, p.Names v → v.OK) :
    ∃ e, p.run = .ok e ∧ e.Canon ∧ ∀ w, e.Mentions w → p.Names w := Prog.run_total hv

/-- The hypothesis is met, even by the program whose value is wrong (`program_false`). -/
example : ∃ e, wCubic.run = .ok e ∧ e.Canon := by
  obtain ⟨e, h1, h2, -⟩ := program_total (p := wCubic) (by
    intro v hv
    simp only [wCubic, Prog.Names, or_self, or_assoc] at hv
    rcases hv with rfl | rfl | rfl | rfl | rfl | rfl <;> first | exact wv_ok _)
  exact ⟨e, h1, h2⟩

end Verif
