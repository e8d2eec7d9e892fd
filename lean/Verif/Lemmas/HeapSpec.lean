import Verif.Model.HeapAll
import Verif.Props.Heap

/-!
# Calls on memory: composition of specifications

`Spec` describes a call that may write to the slices of its receiver, `Safe` a call that only
allocates.  Both are preserved by loops.
-/

set_option linter.unusedSectionVars false

namespace Verif

variable {R : Type} {α β γ A B C : Type}

/-- How a value in memory is read: which exponent slices it refers to and what it stands for. -/
structure Loader (α A : Type) where
  addrs : α → List ℕ
  load : ExpHeap → α → A
  congr : ∀ {h h' : ExpHeap} {a : α}, (∀ x ∈ addrs a, h'.getD x [] = h.getD x []) → load h' a = load h a

/-- Values without exponent slices. -/
def Loader.const (α : Type) : Loader α α := ⟨fun _ => [], fun _ a => a, fun _ => rfl⟩

/-- Slices of values. -/
def Loader.list (L : Loader α A) : Loader (List α) (List A) where
  addrs l := l.flatMap L.addrs
  load h l := l.map (L.load h)
  congr hx := List.map_inj_left.mpr fun _ ha => L.congr fun x h1 => hx x (List.mem_flatMap.mpr ⟨_, ha, h1⟩)

def Loader.flag (L : Loader α A) : Loader (Bool × α) (Bool × A) where
  addrs q := L.addrs q.2
  load h q := (q.1, L.load h q.2)
  congr hx := by rw [L.congr hx]

def LM : Loader (HMono R) (Mono R) :=
  ⟨fun m => [m.addr], HMono.load, fun hx => HMono.load_congr (hx _ (by simp))⟩

def LS : Loader (HScalar R) (Scalar R) := ⟨HScalar.addrs, HScalar.load, HScalar.load_congr⟩

def LP : Loader (HPoly R) (Poly R) :=
  ⟨fun p => (HScalar.poly p).addrs, HPoly.load, fun hx => Scalar.poly.inj (HScalar.load_congr (e := .poly _) hx)⟩

/-- All slices exist. -/
def Loader.Valid (L : Loader α A) (h : ExpHeap) (a : α) : Prop := ∀ x ∈ L.addrs a, x < h.length

theorem getD_prefix {h h' : ExpHeap} (hp : h <+: h') {x : ℕ} (hx : x < h.length) :
    h'.getD x [] = h.getD x [] := by
  obtain ⟨t, rfl⟩ := hp
  exact getD_append_left hx

theorem Loader.load_prefix (L : Loader α A) {h h' : ExpHeap} {a : α} (ha : L.Valid h a) (hp : h <+: h') :
    L.load h' a = L.load h a := L.congr fun x hx => getD_prefix hp (ha x hx)

theorem Loader.Valid.prefix {L : Loader α A} {h h' : ExpHeap} {a : α} (ha : L.Valid h a) (hp : h <+: h') :
    L.Valid h' a := fun x hx => (ha x hx).trans_le hp.length_le

theorem Loader.list_cons (L : Loader α A) {h : ExpHeap} {a : α} {l : List α} :
    L.list.load h (a :: l) = L.load h a :: L.list.load h l := rfl

/-- A call that may write to the receiver's slices: `g` is the outcome, `post` what the receiver stands
for afterwards, also if the call panics. -/
structure Spec (L : Loader α A) (M : Loader β B) (f : α → PM (Heap R) β) (g : A → Go B) (post : A → A)
    (a : α) (h : Heap R) : Prop where
  value : (f a h).1.map (M.load (f a h).2.exps) = g (L.load h.exps a)
  len : h.exps.length ≤ (f a h).2.exps.length
  pvs : (f a h).2.pvs = h.pvs
  frame : ∀ x, x < h.exps.length → x ∉ L.addrs a → (f a h).2.exps.getD x [] = h.exps.getD x []
  self : L.load (f a h).2.exps a = post (L.load h.exps a)
  addrs : ∀ b, (f a h).1 = .ok b → ∀ x ∈ M.addrs b,
    x < (f a h).2.exps.length ∧ (x ∈ L.addrs a ∨ h.exps.length ≤ x)

/-- A call that only allocates, whatever slices are shared. -/
structure Safe (L : Loader α A) (M : Loader β B) (f : α → PM (Heap R) β) (g : A → Go B)
    (a : α) (h : Heap R) : Prop where
  value : (f a h).1.map (M.load (f a h).2.exps) = g (L.load h.exps a)
  ext : h.exps <+: (f a h).2.exps
  pvs : (f a h).2.pvs = h.pvs
  addrs : ∀ b, (f a h).1 = .ok b → ∀ x ∈ M.addrs b,
    x < (f a h).2.exps.length ∧ (x ∈ L.addrs a ∨ h.exps.length ≤ x)

/-- What the entries stand for after a loop that stops at the first panic. -/
def afterAll (g : A → Go B) (post : A → A) : List A → List A
  | [] => []
  | x :: xs => post x :: (match g x with | .ok _ => afterAll g post xs | .error _ => xs)

/-! ## Unfolding -/

theorem PM.pure_apply {σ : Type} {a : α} {s : σ} : (pure a : PM σ α) s = (.ok a, s) := rfl

theorem PM.bind_ok {σ : Type} {x : PM σ α} {f : α → PM σ β} {s : σ} {a : α} (h : (x s).1 = .ok a) :
    (x >>= f) s = f a (x s).2 := by
  show PM.bind x f s = _
  unfold PM.bind
  revert h
  generalize x s = y
  obtain ⟨y1, y2⟩ := y
  rintro rfl
  rfl

theorem PM.bind_error {σ : Type} {x : PM σ α} {f : α → PM σ β} {s : σ} {e : Err} (h : (x s).1 = .error e) :
    (x >>= f) s = (.error e, (x s).2) := by
  show PM.bind x f s = _
  unfold PM.bind
  revert h
  generalize x s = y
  obtain ⟨y1, y2⟩ := y
  rintro rfl
  rfl

theorem Go.map_error {e : Err} {f : α → β} : (Except.error e : Go α).map f = .error e := rfl
theorem Go.map_ok {a : α} {f : α → β} : (Except.ok a : Go α).map f = .ok (f a) := rfl

/-! ## Loops -/

theorem Spec.traverse {L : Loader α A} {M : Loader β B} {f : α → PM (Heap R) β} {g : A → Go B}
    {post : A → A} (l : List α) : ∀ {h : Heap R}, L.list.Valid h.exps l → (L.list.addrs l).Nodup →
    (∀ a ∈ l, ∀ h : Heap R, L.Valid h.exps a → (L.addrs a).Nodup → Spec L M f g post a h) →
    Spec L.list M.list (PM.traverse f) (fun x => x.mapM g) (afterAll g post) l h := by
  induction l with
  | nil =>
    intro h _ _ _
    refine ⟨rfl, le_rfl, rfl, fun _ _ _ => rfl, rfl, fun b hb x hx => ?_⟩
    cases hb
    cases hx
  | cons a l ih =>
    intro h hval hnd hspec
    have hnd' : (L.addrs a ++ L.list.addrs l).Nodup := hnd
    rw [List.nodup_append] at hnd'
    obtain ⟨hnda, hndl, hdis⟩ := hnd'
    have hva : L.Valid h.exps a := fun x hx => hval x (List.mem_append_left _ hx)
    have hvl : L.list.Valid h.exps l := fun x hx => hval x (List.mem_append_right _ hx)
    have h1 := hspec a (by simp) h hva hnda
    have hload : L.list.load (f a h).2.exps l = L.list.load h.exps l := L.list.congr fun x hx =>
      h1.frame x (hvl x hx) fun h2 => hdis x h2 x hx rfl
    have hT : PM.traverse f (a :: l) = f a >>= fun b => PM.traverse f l >>= fun bs => pure (b :: bs) := rfl
    cases ho : (f a h).1 with
    | error e =>
      have hrun : PM.traverse f (a :: l) h = (.error e, (f a h).2) := by rw [hT, PM.bind_error ho]
      have hg : g (L.load h.exps a) = .error e := by rw [← h1.value, ho, Go.map_error]
      refine ⟨?_, ?_, ?_, ?_, ?_, ?_⟩
      · rw [hrun, L.list_cons, List.mapM_cons, hg]
        rfl
      · rw [hrun]; exact h1.len
      · rw [hrun]; exact h1.pvs
      · rw [hrun]
        intro x hx hx2
        exact h1.frame x hx fun h3 => hx2 (List.mem_append_left _ h3)
      · rw [hrun, L.list_cons, L.list_cons, hload, afterAll, hg]
        exact congrArg (· :: _) h1.self
      · rw [hrun]
        intro b hb
        cases hb
    | ok b =>
      have hlen1 := h1.len
      have h2 := ih (h := (f a h).2) (fun x hx => (hvl x hx).trans_le h1.len) hndl
        fun a' ha' => hspec a' (List.mem_cons_of_mem _ ha')
      have hlen2 := h2.len
      have hg : g (L.load h.exps a) = .ok (M.load (f a h).2.exps b) := by rw [← h1.value, ho, Go.map_ok]
      have hrun1 : PM.traverse f (a :: l) h = (PM.traverse f l >>= fun bs => pure (b :: bs)) (f a h).2 := by
        rw [hT, PM.bind_ok ho]
      have hself : L.load (PM.traverse f l (f a h).2).2.exps a = post (L.load h.exps a) := by
        rw [← h1.self]
        exact L.congr fun x hx => h2.frame x ((hva x hx).trans_le h1.len)
          fun h3 => hdis x hx x h3 rfl
      have hbload : M.load (PM.traverse f l (f a h).2).2.exps b = M.load (f a h).2.exps b :=
        M.congr fun x hx => h2.frame x (h1.addrs b ho x hx).1 fun h3 => by
          rcases (h1.addrs b ho x hx).2 with h4 | h4
          · exact hdis x h4 x h3 rfl
          · have := hvl x h3
            omega
      have hframe : ∀ x, x < h.exps.length → x ∉ L.list.addrs (a :: l) →
          (PM.traverse f l (f a h).2).2.exps.getD x [] = h.exps.getD x [] := by
        intro x hx hx2
        rw [h2.frame x (by omega) fun h3 => hx2 (List.mem_append_right _ h3),
          h1.frame x hx fun h3 => hx2 (List.mem_append_left _ h3)]
      have hpost : L.list.load (PM.traverse f l (f a h).2).2.exps (a :: l) =
          afterAll g post (L.list.load h.exps (a :: l)) := by
        rw [L.list_cons, L.list_cons, afterAll, hg, hself]
        refine congrArg (_ :: ·) ?_
        rw [h2.self, hload]
      have hv2 : (PM.traverse f l (f a h).2).1.map (M.list.load (PM.traverse f l (f a h).2).2.exps) =
          (L.list.load h.exps l).mapM g := by
        rw [h2.value, hload]
      cases ho2 : (PM.traverse f l (f a h).2).1 with
      | error e =>
        have hrun : PM.traverse f (a :: l) h = (.error e, (PM.traverse f l (f a h).2).2) := by
          rw [hrun1, PM.bind_error ho2]
        rw [ho2, Go.map_error] at hv2
        refine ⟨?_, ?_, ?_, ?_, ?_, ?_⟩
        · rw [hrun, L.list_cons, List.mapM_cons, hg, Go.ok_bind, ← hv2]
          rfl
        · rw [hrun]; exact hlen1.trans hlen2
        · rw [hrun]; exact h2.pvs.trans h1.pvs
        · rw [hrun]; exact hframe
        · rw [hrun]; exact hpost
        · rw [hrun]
          intro b hb
          cases hb
      | ok bs =>
        have hrun : PM.traverse f (a :: l) h = (.ok (b :: bs), (PM.traverse f l (f a h).2).2) := by
          rw [hrun1, PM.bind_ok ho2]
          rfl
        rw [ho2, Go.map_ok] at hv2
        refine ⟨?_, ?_, ?_, ?_, ?_, ?_⟩
        · rw [hrun, L.list_cons, List.mapM_cons, hg, Go.ok_bind, ← hv2, Go.ok_bind, Go.map_ok, M.list_cons,
            hbload]
          rfl
        · rw [hrun]; exact hlen1.trans hlen2
        · rw [hrun]; exact h2.pvs.trans h1.pvs
        · rw [hrun]; exact hframe
        · rw [hrun]; exact hpost
        · rw [hrun]
          intro b' hb' x hx
          cases hb'
          rcases List.mem_append.mp (show x ∈ M.addrs b ++ M.list.addrs bs from hx) with hx | hx
          · have h3 := h1.addrs b ho x hx
            exact ⟨h3.1.trans_le hlen2, h3.2.imp (List.mem_append_left _) id⟩
          · have h3 := h2.addrs bs ho2 x hx
            exact ⟨h3.1, h3.2.imp (List.mem_append_right _) (fun h4 => hlen1.trans h4)⟩

theorem Safe.traverse {L : Loader α A} {M : Loader β B} {f : α → PM (Heap R) β} {g : A → Go B}
    {P : A → Prop} (l : List α) : ∀ {h : Heap R}, L.list.Valid h.exps l →
    (∀ a ∈ l, P (L.load h.exps a)) →
    (∀ a ∈ l, ∀ h : Heap R, L.Valid h.exps a → P (L.load h.exps a) → Safe L M f g a h) →
    Safe L.list M.list (PM.traverse f) (fun x => x.mapM g) l h := by
  induction l with
  | nil =>
    intro h _ _ _
    refine ⟨rfl, List.prefix_rfl, rfl, fun b hb x hx => ?_⟩
    cases hb
    cases hx
  | cons a l ih =>
    intro h hval hP hspec
    have hva : L.Valid h.exps a := fun x hx => hval x (List.mem_append_left _ hx)
    have hvl : L.list.Valid h.exps l := fun x hx => hval x (List.mem_append_right _ hx)
    have h1 := hspec a (by simp) h hva (hP a (by simp))
    have hload : L.list.load (f a h).2.exps l = L.list.load h.exps l := L.list.load_prefix hvl h1.ext
    have hT : PM.traverse f (a :: l) = f a >>= fun b => PM.traverse f l >>= fun bs => pure (b :: bs) := rfl
    cases ho : (f a h).1 with
    | error e =>
      have hrun : PM.traverse f (a :: l) h = (.error e, (f a h).2) := by rw [hT, PM.bind_error ho]
      have hg : g (L.load h.exps a) = .error e := by rw [← h1.value, ho, Go.map_error]
      refine ⟨?_, ?_, ?_, ?_⟩
      · rw [hrun, L.list_cons, List.mapM_cons, hg]
        rfl
      · rw [hrun]; exact h1.ext
      · rw [hrun]; exact h1.pvs
      · rw [hrun]
        intro b hb
        cases hb
    | ok b =>
      have h2 := ih (h := (f a h).2) (hvl.prefix h1.ext) (fun a' ha' => by
          rw [L.load_prefix (fun x hx => hvl x (List.mem_flatMap.mpr ⟨a', ha', hx⟩)) h1.ext]
          exact hP a' (List.mem_cons_of_mem _ ha'))
        fun a' ha' => hspec a' (List.mem_cons_of_mem _ ha')
      have hg : g (L.load h.exps a) = .ok (M.load (f a h).2.exps b) := by rw [← h1.value, ho, Go.map_ok]
      have hrun1 : PM.traverse f (a :: l) h = (PM.traverse f l >>= fun bs => pure (b :: bs)) (f a h).2 := by
        rw [hT, PM.bind_ok ho]
      have hbload : M.load (PM.traverse f l (f a h).2).2.exps b = M.load (f a h).2.exps b :=
        M.load_prefix (fun x hx => (h1.addrs b ho x hx).1) h2.ext
      have hv2 : (PM.traverse f l (f a h).2).1.map (M.list.load (PM.traverse f l (f a h).2).2.exps) =
          (L.list.load h.exps l).mapM g := by
        rw [h2.value, hload]
      have hlen1 := h1.ext.length_le
      have hlen2 := h2.ext.length_le
      cases ho2 : (PM.traverse f l (f a h).2).1 with
      | error e =>
        have hrun : PM.traverse f (a :: l) h = (.error e, (PM.traverse f l (f a h).2).2) := by
          rw [hrun1, PM.bind_error ho2]
        rw [ho2, Go.map_error] at hv2
        refine ⟨?_, ?_, ?_, ?_⟩
        · rw [hrun, L.list_cons, List.mapM_cons, hg, Go.ok_bind, ← hv2]
          rfl
        · rw [hrun]; exact h1.ext.trans h2.ext
        · rw [hrun]; exact h2.pvs.trans h1.pvs
        · rw [hrun]
          intro b hb
          cases hb
      | ok bs =>
        have hrun : PM.traverse f (a :: l) h = (.ok (b :: bs), (PM.traverse f l (f a h).2).2) := by
          rw [hrun1, PM.bind_ok ho2]
          rfl
        rw [ho2, Go.map_ok] at hv2
        refine ⟨?_, ?_, ?_, ?_⟩
        · rw [hrun, L.list_cons, List.mapM_cons, hg, Go.ok_bind, ← hv2, Go.ok_bind, Go.map_ok, M.list_cons,
            hbload]
          rfl
        · rw [hrun]; exact h1.ext.trans h2.ext
        · rw [hrun]; exact h2.pvs.trans h1.pvs
        · rw [hrun]
          intro b' hb' x hx
          cases hb'
          rcases List.mem_append.mp (show x ∈ M.addrs b ++ M.list.addrs bs from hx) with hx | hx
          · have h3 := h1.addrs b ho x hx
            exact ⟨h3.1.trans_le hlen2, h3.2.imp (List.mem_append_left _) id⟩
          · have h3 := h2.addrs bs ho2 x hx
            exact ⟨h3.1, h3.2.imp (List.mem_append_right _) (fun h4 => hlen1.trans h4)⟩

/-! ## Sequences -/

theorem Spec.bind {L : Loader α A} {M : Loader β B} {N : Loader γ C} {f : α → PM (Heap R) β}
    {g : A → Go B} {post : A → A} {f' : β → PM (Heap R) γ} {g' : B → Go C} {a : α} {h : Heap R}
    (h1 : Spec L M f g post a h) (ha : L.Valid h.exps a)
    (h2 : ∀ b, (f a h).1 = .ok b → ∀ h' : Heap R, M.Valid h'.exps b → Safe M N f' g' b h') :
    Spec L N (fun a => f a >>= f') (fun x => g x >>= g') post a h := by
  cases ho : (f a h).1 with
  | error e =>
    have hrun : (f a >>= f') h = (.error e, (f a h).2) := PM.bind_error ho
    have hg : g (L.load h.exps a) = .error e := by rw [← h1.value, ho, Go.map_error]
    refine ⟨?_, ?_, ?_, ?_, ?_, ?_⟩
    · rw [hrun]
      show _ = g (L.load h.exps a) >>= g'
      rw [hg]
      rfl
    · rw [hrun]; exact h1.len
    · rw [hrun]; exact h1.pvs
    · rw [hrun]; exact h1.frame
    · rw [hrun]; exact h1.self
    · rw [hrun]
      intro b hb
      cases hb
  | ok b =>
    have hg : g (L.load h.exps a) = .ok (M.load (f a h).2.exps b) := by rw [← h1.value, ho, Go.map_ok]
    have h3 := h2 b ho (f a h).2 fun x hx => (h1.addrs b ho x hx).1
    have hrun : (f a >>= f') h = f' b (f a h).2 := PM.bind_ok ho
    have hl := h3.ext.length_le
    refine ⟨?_, ?_, ?_, ?_, ?_, ?_⟩
    · rw [hrun, h3.value]
      show _ = g (L.load h.exps a) >>= g'
      rw [hg]
      rfl
    · rw [hrun]; exact h1.len.trans hl
    · rw [hrun]; exact h3.pvs.trans h1.pvs
    · rw [hrun]
      intro x hx hx2
      rw [getD_prefix h3.ext (hx.trans_le h1.len), h1.frame x hx hx2]
    · rw [hrun, ← h1.self]
      exact L.load_prefix (fun x hx => (ha x hx).trans_le h1.len) h3.ext
    · rw [hrun]
      intro c hc x hx
      have h4 := h3.addrs c hc x hx
      refine ⟨h4.1, ?_⟩
      rcases h4.2 with h5 | h5
      · exact (h1.addrs b ho x h5).2
      · exact Or.inr (h1.len.trans h5)

theorem Safe.bind {L : Loader α A} {M : Loader β B} {N : Loader γ C} {f : α → PM (Heap R) β}
    {g : A → Go B} {f' : β → PM (Heap R) γ} {g' : B → Go C} {a : α} {h : Heap R}
    (h1 : Safe L M f g a h)
    (h2 : ∀ b, (f a h).1 = .ok b → ∀ h' : Heap R, M.Valid h'.exps b → Safe M N f' g' b h') :
    Safe L N (fun a => f a >>= f') (fun x => g x >>= g') a h := by
  cases ho : (f a h).1 with
  | error e =>
    have hrun : (f a >>= f') h = (.error e, (f a h).2) := PM.bind_error ho
    have hg : g (L.load h.exps a) = .error e := by rw [← h1.value, ho, Go.map_error]
    refine ⟨?_, ?_, ?_, ?_⟩
    · rw [hrun]
      show _ = g (L.load h.exps a) >>= g'
      rw [hg]
      rfl
    · rw [hrun]; exact h1.ext
    · rw [hrun]; exact h1.pvs
    · rw [hrun]
      intro b hb
      cases hb
  | ok b =>
    have hg : g (L.load h.exps a) = .ok (M.load (f a h).2.exps b) := by rw [← h1.value, ho, Go.map_ok]
    have h3 := h2 b ho (f a h).2 fun x hx => (h1.addrs b ho x hx).1
    have hrun : (f a >>= f') h = f' b (f a h).2 := PM.bind_ok ho
    refine ⟨?_, ?_, ?_, ?_⟩
    · rw [hrun, h3.value]
      show _ = g (L.load h.exps a) >>= g'
      rw [hg]
      rfl
    · rw [hrun]; exact h1.ext.trans h3.ext
    · rw [hrun]; exact h3.pvs.trans h1.pvs
    · rw [hrun]
      intro c hc x hx
      have h4 := h3.addrs c hc x hx
      refine ⟨h4.1, ?_⟩
      rcases h4.2 with h5 | h5
      · exact (h1.addrs b ho x h5).2
      · exact Or.inr (h1.ext.length_le.trans h5)

/-- A check of the receiver's value before the call. -/
theorem Spec.read {L : Loader α A} {M : Loader β B} {f : α → PM (Heap R) β} {g : A → Go B}
    {post : A → A} {a : α} {h : Heap R} {chk : Heap R → Go Unit} {chk' : A → Go Unit}
    (hc : chk h = chk' (L.load h.exps a)) (h1 : Spec L M f g post a h) :
    Spec L M (fun a => PM.read chk >>= fun _ => f a) (fun x => chk' x >>= fun _ => g x)
      (fun x => match chk' x with | .ok _ => post x | .error _ => x) a h := by
  cases ho : chk' (L.load h.exps a) with
  | error e =>
    rw [ho] at hc
    have hrun : (PM.read chk >>= fun _ => f a) h = (.error e, h) :=
      PM.bind_error (x := PM.read chk) hc
    refine ⟨?_, ?_, ?_, ?_, ?_, ?_⟩
    · rw [hrun, ho]; rfl
    · rw [hrun]
    · rw [hrun]
    · rw [hrun]; exact fun _ _ _ => rfl
    · rw [hrun, ho]
    · rw [hrun]
      intro b hb
      cases hb
  | ok u =>
    rw [ho] at hc
    have hrun : (PM.read chk >>= fun _ => f a) h = f a h := PM.bind_ok (x := PM.read chk) hc
    refine ⟨?_, ?_, ?_, ?_, ?_, ?_⟩
    · rw [hrun, ho]; exact h1.value
    · rw [hrun]; exact h1.len
    · rw [hrun]; exact h1.pvs
    · rw [hrun]; exact h1.frame
    · rw [hrun, ho]; exact h1.self
    · rw [hrun]; exact h1.addrs

theorem Safe.read {L : Loader α A} {M : Loader β B} {f : α → PM (Heap R) β} {g : A → Go B}
    {a : α} {h : Heap R} {chk : Heap R → Go Unit} {chk' : A → Go Unit}
    (hc : chk h = chk' (L.load h.exps a)) (h1 : chk' (L.load h.exps a) = .ok () → Safe L M f g a h) :
    Safe L M (fun a => PM.read chk >>= fun _ => f a) (fun x => chk' x >>= fun _ => g x) a h := by
  cases ho : chk' (L.load h.exps a) with
  | error e =>
    rw [ho] at hc
    have hrun : (PM.read chk >>= fun _ => f a) h = (.error e, h) :=
      PM.bind_error (x := PM.read chk) hc
    refine ⟨?_, ?_, ?_, ?_⟩
    · rw [hrun, ho]; rfl
    · rw [hrun]
    · rw [hrun]
    · rw [hrun]
      intro b hb
      cases hb
  | ok u =>
    have h1 := h1 ho
    rw [ho] at hc
    have hrun : (PM.read chk >>= fun _ => f a) h = f a h := PM.bind_ok (x := PM.read chk) hc
    refine ⟨?_, ?_, ?_, ?_⟩
    · rw [hrun, ho]; exact h1.value
    · rw [hrun]; exact h1.ext
    · rw [hrun]; exact h1.pvs
    · rw [hrun]; exact h1.addrs

theorem Safe.ret {L : Loader α A} {M : Loader β B} {f : α → β} {g : A → B} {a : α} {h : Heap R}
    (h1 : M.load h.exps (f a) = g (L.load h.exps a)) (h2 : ∀ x ∈ M.addrs (f a), x ∈ L.addrs a)
    (h3 : L.Valid h.exps a) : Safe L M (fun a => (pure (f a) : PM (Heap R) β)) (fun x => .ok (g x)) a h :=
  ⟨congrArg Except.ok h1, List.prefix_rfl, rfl, fun b hb x hx => by
    cases hb
    exact ⟨h3 x (h2 x hx), Or.inl (h2 x hx)⟩⟩

theorem Safe.panic {L : Loader α A} {M : Loader β B} {e : Err} {a : α} {h : Heap R} :
    Safe L M (fun _ => (PM.panic e : PM (Heap R) β)) (fun _ => .error e) a h :=
  ⟨rfl, List.prefix_rfl, rfl, fun b hb => by cases hb⟩

/-- The same call, described by other functions that agree at this receiver. -/
theorem Spec.congr {L : Loader α A} {M : Loader β B} {f f' : α → PM (Heap R) β} {g g' : A → Go B}
    {post post' : A → A} {a : α} {h : Heap R} (h1 : Spec L M f g post a h) (hf : f' a h = f a h)
    (hg : g' (L.load h.exps a) = g (L.load h.exps a))
    (hp : post' (L.load h.exps a) = post (L.load h.exps a)) : Spec L M f' g' post' a h := by
  refine ⟨?_, ?_, ?_, ?_, ?_, ?_⟩
  · rw [hf, hg]; exact h1.value
  · rw [hf]; exact h1.len
  · rw [hf]; exact h1.pvs
  · rw [hf]; exact h1.frame
  · rw [hf, hp]; exact h1.self
  · rw [hf]; exact h1.addrs

theorem Safe.congr {L : Loader α A} {M : Loader β B} {f f' : α → PM (Heap R) β} {g g' : A → Go B}
    {a : α} {h : Heap R} (h1 : Safe L M f g a h) (hf : f' a h = f a h)
    (hg : g' (L.load h.exps a) = g (L.load h.exps a)) : Safe L M f' g' a h := by
  refine ⟨?_, ?_, ?_, ?_⟩
  · rw [hf, hg]; exact h1.value
  · rw [hf]; exact h1.ext
  · rw [hf]; exact h1.pvs
  · rw [hf]; exact h1.addrs

theorem afterAll_id {g : A → Go B} (l : List A) : afterAll g id l = l := by
  induction l with
  | nil => rfl
  | cons x xs ih =>
    rw [afterAll, ih]
    cases g x <;> rfl

theorem afterAll_ok {g : A → Go B} {post : A → A} {l : List A} (h : ∀ x ∈ l, ∃ b, g x = .ok b) :
    afterAll g post l = l.map post := by
  induction l with
  | nil => rfl
  | cons x xs ih =>
    obtain ⟨b, hb⟩ := h x (by simp)
    rw [afterAll, hb, ih fun y hy => h y (by simp [hy])]
    rfl

/-- A call that only allocates does not change its receiver. -/
theorem Safe.spec {L : Loader α A} {M : Loader β B} {f : α → PM (Heap R) β} {g : A → Go B}
    {a : α} {h : Heap R} (h1 : Safe L M f g a h) (ha : L.Valid h.exps a) : Spec L M f g id a h :=
  ⟨h1.value, h1.ext.length_le, h1.pvs, fun _ hx _ => getD_prefix h1.ext hx, L.load_prefix ha h1.ext,
    h1.addrs⟩

end Verif
