import Verif.Model.HeapArith
import Verif.Lemmas.HeapCalls

/-!
# Calls on memory that only allocate: refinement of functions on values

`Rep lo L h a x`: `a` is in the memory `h`, stands for `x`, and its slices have addresses from `lo` on.
`Ref lo M x h y`: the call `x` has the outcome `y` of a function on values, the memory before is a prefix of
the memory after, and the slices of the result have addresses from `lo` on.  With `lo = 0` this allows any
sharing; with `lo` the size of the memory before the call, the result shares nothing with what was there.
-/

set_option linter.unusedSectionVars false

namespace Verif

open GoNum

variable {R : Type} {α β γ A B C : Type} {lo : ℕ}

/-- All slices exist and have addresses from `lo` on. -/
def Loader.In (L : Loader α A) (lo : ℕ) (h : ExpHeap) (a : α) : Prop := ∀ x ∈ L.addrs a, lo ≤ x ∧ x < h.length

theorem Loader.In.valid {L : Loader α A} {h : ExpHeap} {a : α} (ha : L.In lo h a) : L.Valid h a :=
  fun x hx => (ha x hx).2

/-- `a` stands for `x`. -/
structure Rep (lo : ℕ) (L : Loader α A) (h : ExpHeap) (a : α) (x : A) : Prop where
  valid : L.In lo h a
  load : L.load h a = x

theorem Rep.mono {L : Loader α A} {h h' : ExpHeap} {a : α} {x : A} (ha : Rep lo L h a x) (hp : h <+: h') :
    Rep lo L h' a x :=
  ⟨fun y hy => ⟨(ha.valid y hy).1, (ha.valid y hy).2.trans_le hp.length_le⟩,
    (L.load_prefix ha.valid.valid hp).trans ha.load⟩

theorem Rep.weaken {L : Loader α A} {h : ExpHeap} {a : α} {x : A} (ha : Rep lo L h a x) : Rep 0 L h a x :=
  ⟨fun y hy => ⟨Nat.zero_le _, (ha.valid y hy).2⟩, ha.load⟩

/-- The outcome is `y`, only new slices were written, and the result's slices have addresses from `lo` on. -/
structure RefBody (lo : ℕ) (M : Loader β B) (x : PM (Heap R) β) (h : Heap R) (y : Go B) : Prop where
  value : (x h).1.map (M.load (x h).2.exps) = y
  ext : h.exps <+: (x h).2.exps
  pvs : (x h).2.pvs = h.pvs
  valid : ∀ b, (x h).1 = .ok b → M.In lo (x h).2.exps b

/-- `RefBody` in every memory that reaches `lo`. -/
def Ref (lo : ℕ) (M : Loader β B) (x : PM (Heap R) β) (h : Heap R) (y : Go B) : Prop :=
  lo ≤ h.exps.length → RefBody lo M x h y

theorem Ref.pure {M : Loader β B} {b : β} {h : Heap R} {y : B} (hb : Rep lo M h.exps b y) :
    Ref lo M (pure b) h (.ok y) := fun _ =>
  ⟨congrArg Except.ok hb.load, List.prefix_rfl, rfl, fun b' hb' => by cases hb'; exact hb.valid⟩

theorem Ref.panic {M : Loader β B} {h : Heap R} {e : Err} : Ref lo M (PM.panic e) h (.error e) := fun _ =>
  ⟨rfl, List.prefix_rfl, rfl, fun b hb => by cases hb⟩

theorem Rep.const {h : ExpHeap} {a x : α} (ha : Rep lo (Loader.const α) h a x) : a = x := ha.load

theorem Ref.bindLe {lo1 : ℕ} (hle : lo1 ≤ lo) {M : Loader β B} {N : Loader γ C} {x : PM (Heap R) β}
    {f : β → PM (Heap R) γ} {y : Go B} {g : B → Go C} {h : Heap R} (h1 : Ref lo1 M x h y)
    (h2 : ∀ b z (h' : Heap R), h.exps <+: h'.exps → y = .ok z → Rep lo1 M h'.exps b z → Ref lo N (f b) h' (g z)) :
    Ref lo N (x >>= f) h (y >>= g) := by
  intro hlo
  replace h1 := h1 (hle.trans hlo)
  cases ho : (x h).1 with
  | error e =>
    have hrun : (x >>= f) h = (.error e, (x h).2) := PM.bind_error ho
    have hg : y = .error e := by rw [← h1.value, ho, Go.map_error]
    refine ⟨?_, ?_, ?_, ?_⟩
    · rw [hrun, hg]; rfl
    · rw [hrun]; exact h1.ext
    · rw [hrun]; exact h1.pvs
    · rw [hrun]
      intro b hb
      cases hb
  | ok b =>
    have hg : y = .ok (M.load (x h).2.exps b) := by rw [← h1.value, ho, Go.map_ok]
    have h3 := h2 b _ (x h).2 h1.ext hg ⟨h1.valid b ho, rfl⟩ (hlo.trans h1.ext.length_le)
    have hrun : (x >>= f) h = f b (x h).2 := PM.bind_ok ho
    refine ⟨?_, ?_, ?_, ?_⟩
    · rw [hrun, h3.value, hg]; rfl
    · rw [hrun]; exact h1.ext.trans h3.ext
    · rw [hrun]; exact h3.pvs.trans h1.pvs
    · rw [hrun]; exact h3.valid

theorem Ref.bind {M : Loader β B} {N : Loader γ C} {x : PM (Heap R) β} {f : β → PM (Heap R) γ} {y : Go B}
    {g : B → Go C} {h : Heap R} (h1 : Ref lo M x h y)
    (h2 : ∀ b z (h' : Heap R), h.exps <+: h'.exps → y = .ok z → Rep lo M h'.exps b z → Ref lo N (f b) h' (g z)) :
    Ref lo N (x >>= f) h (y >>= g) := Ref.bindLe le_rfl h1 h2

/-- A first call whose result may share slices, while the final result does not. -/
theorem Ref.bind0 {M : Loader β B} {N : Loader γ C} {x : PM (Heap R) β} {f : β → PM (Heap R) γ} {y : Go B}
    {g : B → Go C} {h : Heap R} (h1 : Ref 0 M x h y)
    (h2 : ∀ b z (h' : Heap R), h.exps <+: h'.exps → y = .ok z → Rep 0 M h'.exps b z → Ref lo N (f b) h' (g z)) :
    Ref lo N (x >>= f) h (y >>= g) := Ref.bindLe (Nat.zero_le _) h1 h2

/-- Reading a value, then going on. -/
theorem Ref.readBind {N : Loader γ C} {rd : Heap R → Go α} {f : α → PM (Heap R) γ} {y : Go α}
    {g : α → Go C} {h : Heap R} (hf : rd h = y)
    (h2 : ∀ a, y = .ok a → Ref lo N (f a) h (g a)) : Ref lo N (PM.read rd >>= f) h (y >>= g) := by
  intro hlo
  subst hf
  cases ho : rd h with
  | error e =>
    have hrun : (PM.read rd >>= f) h = (.error e, h) := PM.bind_error (x := PM.read rd) ho
    refine ⟨?_, ?_, ?_, ?_⟩ <;> rw [hrun]
    · rfl
    · intro b hb
      cases hb
  | ok a =>
    have h3 := h2 a ho hlo
    have hrun : (PM.read rd >>= f) h = f a h := PM.bind_ok (x := PM.read rd) ho
    refine ⟨?_, ?_, ?_, ?_⟩
    · rw [hrun, h3.value]; rfl
    · rw [hrun]; exact h3.ext
    · rw [hrun]; exact h3.pvs
    · rw [hrun]; exact h3.valid

/-- Reading a value that cannot fail. -/
theorem Ref.readOk {N : Loader γ C} {rd : Heap R → Go α} {f : α → PM (Heap R) γ} {a : α} {y : Go C} {h : Heap R}
    (hf : rd h = .ok a) (h2 : Ref lo N (f a) h y) : Ref lo N (PM.read rd >>= f) h y := by
  have h3 := Ref.readBind (N := N) (f := f) (g := fun _ => y) hf (fun b hb => by cases hb; exact h2)
  exact h3

/-- A first call that does not fail. -/
theorem Ref.bindOk {M : Loader β B} {N : Loader γ C} {x : PM (Heap R) β} {f : β → PM (Heap R) γ} {z : B}
    {y : Go C} {h : Heap R} (h1 : Ref lo M x h (.ok z))
    (h2 : ∀ b (h' : Heap R), h.exps <+: h'.exps → Rep lo M h'.exps b z → Ref lo N (f b) h' y) :
    Ref lo N (x >>= f) h y := by
  have h3 := Ref.bind (g := fun _ => y) h1 (fun b z' h' hp hz hb => by cases hz; exact h2 b h' hp hb)
  exact h3

theorem Rep.cons {L : Loader α A} {h : ExpHeap} {a : α} {l : List α} {x : A} {xs : List A}
    (ha : Rep lo L h a x) (hl : Rep lo L.list h l xs) : Rep lo L.list h (a :: l) (x :: xs) :=
  ⟨fun y hy => by
    rcases List.mem_append.mp (show y ∈ L.addrs a ++ L.list.addrs l from hy) with hy | hy
    · exact ha.valid y hy
    · exact hl.valid y hy, by rw [L.list_cons, ha.load, hl.load]⟩

theorem Rep.nil {L : Loader α A} {h : ExpHeap} : Rep lo L.list h [] [] := ⟨fun y hy => (by cases hy), rfl⟩

theorem Rep.cons_inv {L : Loader α A} {h : ExpHeap} {a : α} {l : List α} {xs : List A}
    (hl : Rep lo L.list h (a :: l) xs) : ∃ y ys, xs = y :: ys ∧ Rep lo L h a y ∧ Rep lo L.list h l ys :=
  ⟨_, _, hl.load.symm, ⟨fun x hx => hl.valid x (List.mem_append_left _ hx), rfl⟩,
    ⟨fun x hx => hl.valid x (List.mem_append_right _ hx), rfl⟩⟩

theorem Rep.nil_inv {L : Loader α A} {h : ExpHeap} {xs : List A} (hl : Rep lo L.list h [] xs) : xs = [] :=
  hl.load.symm

theorem Rep.append {L : Loader α A} {h : ExpHeap} {l l' : List α} {xs xs' : List A}
    (hl : Rep lo L.list h l xs) (hl' : Rep lo L.list h l' xs') : Rep lo L.list h (l ++ l') (xs ++ xs') := by
  induction l generalizing xs with
  | nil => rw [hl.nil_inv]; exact hl'
  | cons a l ih =>
    obtain ⟨y, ys, rfl, h1, h2⟩ := hl.cons_inv
    exact h1.cons (ih h2)

theorem Ref.traverse {lo1 : ℕ} {L : Loader α A} {M : Loader β B} {f : α → PM (Heap R) β} {g : A → Go B}
    (l : List α) : ∀ {h : Heap R} {xs : List A}, Rep lo1 L.list h.exps l xs →
    (∀ a x, ∀ h' : Heap R, h.exps <+: h'.exps → Rep lo1 L h'.exps a x → Ref lo M (f a) h' (g x)) →
    Ref lo M.list (PM.traverse f l) h (xs.mapM g) := by
  induction l with
  | nil =>
    intro h xs hl _
    rw [hl.nil_inv]
    exact Ref.pure Rep.nil
  | cons a l ih =>
    intro h xs hl hf
    obtain ⟨y, ys, rfl, h1, h2⟩ := hl.cons_inv
    rw [List.mapM_cons]
    refine Ref.bind (hf a y h List.prefix_rfl h1) fun b z h' hp _ hb => ?_
    refine Ref.bind (ih (h2.mono hp) fun a' x' h'' hp' => hf a' x' h'' (hp.trans hp')) fun bs zs h'' hp' _ hbs => ?_
    exact Ref.pure ((hb.mono hp').cons hbs)

theorem Ref.foldl {lo1 : ℕ} {L : Loader α A} {M : Loader β B} {f : β → α → PM (Heap R) β} {g : B → A → Go B}
    (l : List α) : ∀ {h : Heap R} {xs : List A} {b : β} {y : B}, Rep lo1 L.list h.exps l xs → Rep lo M h.exps b y →
    (∀ a x b y, ∀ h' : Heap R, h.exps <+: h'.exps → Rep lo1 L h'.exps a x → Rep lo M h'.exps b y →
      Ref lo M (f b a) h' (g y x)) →
    Ref lo M (PM.foldl f l b) h (xs.foldlM g y) := by
  induction l with
  | nil =>
    intro h xs b y hl hb _
    rw [hl.nil_inv]
    exact Ref.pure hb
  | cons a l ih =>
    intro h xs b y hl hb hf
    obtain ⟨z, zs, rfl, h1, h2⟩ := hl.cons_inv
    rw [List.foldlM_cons]
    refine Ref.bind (hf a z b y h List.prefix_rfl h1 hb) fun b' y' h' hp _ hb' => ?_
    exact ih (h2.mono hp) hb' fun a' x' b'' y'' h'' hp' => hf a' x' b'' y'' h'' (hp.trans hp')

/-! ## Scalars in memory -/

theorem Rep.mono_iff {h : ExpHeap} {m : HMono R} {s : Scalar R} :
    Rep lo LS h (.mono m) s ↔ ∃ n, s = .mono n ∧ Rep lo LM h m n :=
  ⟨fun hm => ⟨_, hm.load.symm, hm.valid, rfl⟩, fun ⟨_, hs, hm⟩ => ⟨hm.valid, hs ▸ congrArg Scalar.mono hm.load⟩⟩

theorem Rep.toMono {h : ExpHeap} {m : HMono R} {n : Mono R} (hm : Rep lo LM h m n) :
    Rep lo LS h (.mono m) (.mono n) := Rep.mono_iff.mpr ⟨_, rfl, hm⟩

theorem LM_list_addrs (l : List (HMono R)) : LM.list.addrs l = l.map (·.addr) := by
  induction l with
  | nil => rfl
  | cons a l ih => exact congrArg (a.addr :: ·) ih

theorem Rep.poly_iff {h : ExpHeap} {p : HPoly R} {s : Scalar R} :
    Rep lo LS h (.poly p) s ↔ ∃ ms, s = .poly ⟨ms⟩ ∧ Rep lo LM.list h p.monos ms := by
  constructor
  · intro hp
    refine ⟨_, hp.load.symm, ?_, rfl⟩
    intro x hx
    rw [LM_list_addrs] at hx
    exact hp.valid x hx
  · rintro ⟨ms, rfl, hp⟩
    refine ⟨fun x hx => hp.valid x ?_, congrArg (fun l => Scalar.poly ⟨l⟩) hp.load⟩
    rw [LM_list_addrs]
    exact hx

theorem Rep.toPoly {h : ExpHeap} {l : List (HMono R)} {ms : List (Mono R)} (hm : Rep lo LM.list h l ms) :
    Rep lo LS h (.poly ⟨l⟩) (.poly ⟨ms⟩) := Rep.poly_iff.mpr ⟨_, rfl, hm⟩

theorem Rep.k {h : ExpHeap} {c : R} : Rep lo LS h (.k c) (.k c) := ⟨fun y hy => (by cases hy), rfl⟩
theorem Rep.var {h : ExpHeap} {v : Var R} : Rep lo LS h (.var v) (.var v) := ⟨fun y hy => (by cases hy), rfl⟩

theorem Rep.k_inv {h : ExpHeap} {c : R} {s : Scalar R} (hs : Rep lo LS h (.k c) s) : s = .k c := hs.load.symm
theorem Rep.var_inv {h : ExpHeap} {v : Var R} {s : Scalar R} (hs : Rep lo LS h (.var v) s) : s = .var v :=
  hs.load.symm

theorem Rep.coeff {h : ExpHeap} {m : HMono R} {n : Mono R} (hm : Rep lo LM h m n) : m.coeff = n.coeff := by
  rw [← hm.load]; rfl
theorem Rep.vars {h : ExpHeap} {m : HMono R} {n : Mono R} (hm : Rep lo LM h m n) : m.vars = n.vars := by
  rw [← hm.load]; rfl

theorem Rep.withCoeff {h : ExpHeap} {m : HMono R} {n : Mono R} (hm : Rep lo LM h m n) (c : R) :
    Rep lo LM h { m with coeff := c } { n with coeff := c } :=
  ⟨hm.valid, by rw [← hm.load]; rfl⟩

theorem Rep.modifyCoeff {h : ExpHeap} {l : List (HMono R)} {ms : List (Mono R)} (hl : Rep lo LM.list h l ms)
    (i : ℕ) (f : R → R) : Rep lo LM.list h (l.modify i (fun m => { m with coeff := f m.coeff }))
      (ms.modify i (fun m => { m with coeff := f m.coeff })) := by
  induction l generalizing i ms with
  | nil => rw [hl.nil_inv]; simpa using Rep.nil
  | cons a l ih =>
    obtain ⟨y, ys, rfl, h1, h2⟩ := hl.cons_inv
    cases i with
    | zero =>
      rw [List.modify_zero_cons, List.modify_zero_cons, h1.coeff]
      exact (h1.withCoeff _).cons h2
    | succ i =>
      rw [List.modify_succ_cons, List.modify_succ_cons]
      exact h1.cons (ih h2 i)

theorem Rep.getElem? {L : Loader α A} {h : ExpHeap} {l : List α} {xs : List A} (hl : Rep lo L.list h l xs) (i : ℕ) :
    (l[i]? = none ∧ xs[i]? = none) ∨ ∃ a x, l[i]? = some a ∧ xs[i]? = some x ∧ Rep lo L h a x := by
  induction l generalizing i xs with
  | nil => rw [hl.nil_inv]; exact Or.inl ⟨by simp, by simp⟩
  | cons a l ih =>
    obtain ⟨y, ys, rfl, h1, h2⟩ := hl.cons_inv
    cases i with
    | zero => exact Or.inr ⟨a, y, rfl, rfl, h1⟩
    | succ i => simpa using ih h2 i

end Verif
