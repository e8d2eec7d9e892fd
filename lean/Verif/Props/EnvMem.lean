import Verif.Model.EnvMem
import Verif.Props.Slice
import Verif.Props.Env
import Verif.Model.Binary64

/-!
# C71: the list that `AllTrackedVariables` returns

`AllTrackedVariables` returns the environment's own slice.  A client that only reads it holds a snapshot:
later creations do not change it, and the environments hold exactly what was tracked.  This is so for all
programs that write only to copies.  A write to the returned slice, an `append` to it, or a copy of the
struct of an environment can replace tracked variables.
-/

namespace Verif

variable {R : Type}

/-! ## Specification: lists are values -/

/-- The environments with their lists; for each slice the client holds, its contents if it was returned by
`AllTrackedVariables`, and nothing if it is a copy of the client. -/
structure VState (R : Type) where
  envs : List (String × List (Var R))
  held : List (Option (List (Var R)))

/-- Tracking in a list: nothing if the ID is there, otherwise at the end. -/
def trackIn (l : List (Var R)) (v : Var R) : List (Var R) := if l.any (fun x => x.id == v.id) then l else l ++ [v]

variable [GoNum R]

/-- What a call should do. -/
def VState.step (s : VState R) : MOp R → VState R
  | .make name => ⟨s.envs ++ [(name, [])], s.held⟩
  | .track e v _ => ⟨s.envs.modify e (fun x => (x.1, trackIn x.2 v)), s.held⟩
  | .new binary e _ => ⟨s.envs.modify e (fun x => (x.1, trackIn x.2 (newVarValue binary x.2.length e))), s.held⟩
  | .list e => match s.envs[e]? with
    | none => s
    | some x => ⟨s.envs, s.held ++ [some x.2]⟩
  | .copy i _ => if i < s.held.length then ⟨s.envs, s.held ++ [none]⟩ else s
  | .write _ _ _ => s
  | .append i _ _ => if i < s.held.length then ⟨s.envs, s.held ++ [none]⟩ else s
  | .dup e => match s.envs[e]? with
    | none => s
    | some x => ⟨s.envs ++ [x], s.held⟩

def VState.run (s : VState R) (ops : List (MOp R)) : VState R := ops.foldl VState.step s

/-- At the start. -/
def VState.init : VState R := ⟨[("DefaultEnvironment", [])], []⟩

/-- The client writes only to copies, and does not copy structs of environments. -/
def MOp.Fine (s : VState R) : MOp R → Prop
  | .write i _ _ => ∀ l, s.held[i]? ≠ some (some l)
  | .append i _ _ => ∀ l, s.held[i]? ≠ some (some l)
  | .dup _ => False
  | _ => True

def FineOps (s : VState R) : List (MOp R) → Prop
  | [] => True
  | o :: os => o.Fine s ∧ FineOps (s.step o) os

section NoNum

/-! ## What `append` does -/

omit [GoNum R]

theorem Sl.read_congr {μ μ' : VMem R} {s : Sl}
    (h : ∀ k, k < s.off + s.len → (μ'.getD s.arr [])[k]? = (μ.getD s.arr [])[k]?) : s.read μ' = s.read μ := by
  apply List.ext_getElem?
  intro k
  rw [Sl.read_getElem?, Sl.read_getElem?]
  split
  · exact h _ (by omega)
  · rfl

theorem getD_snoc {μ : VMem R} {x : List (Var R)} {i : ℕ} (hi : i < μ.length) : (μ ++ [x]).getD i [] = μ.getD i [] := by
  simp [List.getD_eq_getElem?_getD, List.getElem?_append_left hi]

theorem getD_last {μ : VMem R} {x : List (Var R)} : (μ ++ [x]).getD μ.length [] = x := by
  simp [List.getD_eq_getElem?_getD]

theorem modify_frame {μ : VMem R} {i p : ℕ} {v : Var R} (hi : i < μ.length) (hp : p + 1 ≤ (μ.getD i []).length)
    {arr k : ℕ} (h : arr ≠ i ∨ k ≠ p) :
    ((μ.modify i (fun l => writeAt l p [v])).getD arr [])[k]? = (μ.getD arr [])[k]? := by
  rw [getD_modify hi]
  split
  · next ha =>
    subst ha
    rw [writeAt_getElem? (by simpa using hp), if_neg]
    rcases h with h | h
    · exact absurd rfl h
    · simp; omega
  · rfl

theorem modify_length {μ : VMem R} {i p : ℕ} {v : Var R} (hi : i < μ.length) (hp : p + 1 ≤ (μ.getD i []).length)
    (arr : ℕ) : ((μ.modify i (fun l => writeAt l p [v])).getD arr []).length = (μ.getD arr []).length := by
  rw [getD_modify hi]
  split
  · next ha =>
    subst ha
    exact writeAt_length (by simpa using hp)
  · rfl

structure Appended (μ : VMem R) (s : Sl) (v : Var R) (μ' : VMem R) (s' : Sl) : Prop where
  wf : s'.WF μ'
  read : s'.read μ' = s.read μ ++ [v]
  arr : s'.arr = s.arr ∨ s'.arr = μ.length
  fresh : s'.arr = μ.length → s'.off = 0
  off : s'.arr = s.arr → s'.off = s.off ∧ s'.len = s.len + 1
  grow : μ.length ≤ μ'.length
  sizes : ∀ arr < μ.length, (μ'.getD arr []).length = (μ.getD arr []).length
  frame : ∀ arr < μ.length, ∀ k, arr ≠ s.arr ∨ k < s.off + s.len → (μ'.getD arr [])[k]? = (μ.getD arr [])[k]?

theorem append1_spec {μ : VMem R} {s : Sl} (hs : s.WF μ) (v : Var R) (spare : List (Var R)) :
    Appended μ s v (append1 μ s v spare).1 (append1 μ s v spare).2 := by
  have h1 := hs.arr
  have h3 := hs.cap
  unfold append1
  split
  · next hl =>
    have hp : s.off + s.len + 1 ≤ (μ.getD s.arr []).length := by omega
    have hframe : ∀ arr < μ.length, ∀ k, arr ≠ s.arr ∨ k < s.off + s.len →
        ((μ.modify s.arr (fun l => writeAt l (s.off + s.len) [v])).getD arr [])[k]? = (μ.getD arr [])[k]? :=
      fun arr _ k h => modify_frame h1 hp (h.imp_right fun h => by omega)
    refine ⟨⟨by simpa using h1, by show s.len + 1 ≤ s.cap; omega, ?_⟩, ?_, .inl rfl, ?_, fun _ => ⟨rfl, rfl⟩,
      by simp, fun arr _ => modify_length h1 hp arr, hframe⟩
    · dsimp only
      rw [modify_length h1 hp]; exact h3
    · apply List.ext_getElem?
      intro k
      rw [Sl.read_getElem?]
      dsimp only
      rw [getD_modify h1, if_pos rfl, writeAt_getElem? (by simpa using hp)]
      have hlen := hs.read_length
      rcases Nat.lt_trichotomy k s.len with hk | hk | hk
      · rw [if_pos (by omega), if_neg (by simp; omega), List.getElem?_append_left (by omega), Sl.read_getElem?,
          if_pos hk]
      · subst hk
        rw [if_pos (by omega), if_pos (by simp), List.getElem?_append_right (by omega), hlen]
        simp
      · rw [if_neg (by omega), List.getElem?_append_right (by omega), hlen]
        rw [List.getElem?_eq_none (by simp; omega)]
    · intro h
      dsimp only at h
      omega
  · have hlen := hs.read_length
    refine ⟨⟨by simp, by simp, ?_⟩, ?_, .inr rfl, fun _ => rfl, ?_, by simp, ?_, ?_⟩
    · dsimp only
      rw [getD_last]
      simp [hlen]; omega
    · unfold Sl.read
      dsimp only
      rw [getD_last, List.drop_zero, List.take_append]
      have e : List.take (s.len + 1) (List.take s.len (List.drop s.off (μ.getD s.arr []))) = s.read μ :=
        List.take_of_length_le (by show (s.read μ).length ≤ _; omega)
      have e' : (List.take s.len (List.drop s.off (μ.getD s.arr []))).length = s.len := hlen
      rw [e, e', Nat.add_sub_cancel_left]
      rfl
    · intro h
      dsimp only at h
      omega
    · intro arr ha
      rw [getD_snoc ha]
    · intro arr ha k _
      rw [getD_snoc ha]

/-! ## The simulation -/

theorem Sl.WF.mono {μ μ' : VMem R} {t : Sl} (h : t.WF μ) (hg : μ.length ≤ μ'.length)
    (hs : ∀ arr < μ.length, (μ'.getD arr []).length = (μ.getD arr []).length) : t.WF μ' :=
  ⟨lt_of_lt_of_le h.arr hg, h.len, by rw [hs _ h.arr]; exact h.cap⟩

structure Sim (s : MState R) (a : VState R) : Prop where
  envs : s.seen = a.envs
  wf : ∀ (e : ℕ) b, s.envs[e]? = some b → b.vars.WF s.mem
  apart : ∀ (e f : ℕ) b c, s.envs[e]? = some b → s.envs[f]? = some c → b.vars.arr = c.vars.arr → e = f
  len : s.held.length = a.held.length
  hwf : ∀ (i : ℕ) t, s.held[i]? = some t → t.WF s.mem
  view : ∀ (i : ℕ) t l, s.held[i]? = some t → a.held[i]? = some (some l) → t.read s.mem = l
  behind : ∀ (i : ℕ) t l, s.held[i]? = some t → a.held[i]? = some (some l) →
    ∀ (e : ℕ) b, s.envs[e]? = some b → b.vars.arr = t.arr → t.off + t.len ≤ b.vars.off + b.vars.len
  ownEnv : ∀ (i : ℕ) t, s.held[i]? = some t → a.held[i]? = some none →
    ∀ (e : ℕ) b, s.envs[e]? = some b → b.vars.arr ≠ t.arr
  ownView : ∀ (i : ℕ) t, s.held[i]? = some t → a.held[i]? = some none →
    ∀ (j : ℕ) u l, s.held[j]? = some u → a.held[j]? = some (some l) → u.arr ≠ t.arr

theorem Sim.get {s : MState R} {a : VState R} (h : Sim s a) (e : ℕ) :
    a.envs[e]? = (s.envs[e]?).map fun b => (b.name, b.vars.read s.mem) := by
  rw [← h.envs, MState.seen, List.getElem?_map]
  rfl

/-- Tracking in environment `e`. -/
theorem Sim.track {s : MState R} {a : VState R} (h : Sim s a) {e : ℕ} {b : BEnv} (hb : s.envs[e]? = some b)
    (v : Var R) (spare : List (Var R)) :
    Sim ⟨(b.track s.mem v spare).2.1, s.envs.set e (b.track s.mem v spare).2.2, s.held⟩
      ⟨a.envs.set e (b.name, trackIn (b.vars.read s.mem) v), a.held⟩ := by
  have he := (List.getElem?_eq_some_iff.mp hb).1
  unfold BEnv.track trackIn
  split
  · have e1 : s.envs.set e b = s.envs := by
      rw [← (List.getElem?_eq_some_iff.mp hb).2]; exact List.set_getElem_self he
    have e2 : a.envs.set e (b.name, b.vars.read s.mem) = a.envs := by
      have hx := h.get e
      rw [hb] at hx
      obtain ⟨h1, h2⟩ := List.getElem?_eq_some_iff.mp hx
      have h2 : a.envs[e] = (b.name, b.vars.read s.mem) := h2
      rw [← h2]; exact List.set_getElem_self h1
    dsimp only
    rw [e1, e2]
    exact h
  · have hA := append1_spec (h.wf e b hb) v spare
    generalize append1 s.mem b.vars v spare = r at hA ⊢
    obtain ⟨μ', t'⟩ := r
    dsimp only at hA ⊢
    have hget : ∀ (f : ℕ) c, (s.envs.set e { b with vars := t' })[f]? = some c →
        (f = e ∧ c = { b with vars := t' }) ∨ (f ≠ e ∧ s.envs[f]? = some c) := by
      intro f c hc
      rw [List.getElem?_set] at hc
      by_cases hf : e = f
      · subst hf
        rw [if_pos rfl, if_pos he] at hc
        exact .inl ⟨rfl, (Option.some.inj hc).symm⟩
      · rw [if_neg hf] at hc
        exact .inr ⟨fun h => hf h.symm, hc⟩
    have hkeep : ∀ u : Sl, u.WF s.mem → (u.arr = b.vars.arr → u.off + u.len ≤ b.vars.off + b.vars.len) →
        u.read μ' = u.read s.mem := by
      intro u hu hub
      refine Sl.read_congr fun k hk => hA.frame _ hu.arr k ?_
      by_cases hq : u.arr = b.vars.arr
      · exact .inr (lt_of_lt_of_le hk (hub hq))
      · exact .inl hq
    have hother : ∀ (f : ℕ) c, f ≠ e → s.envs[f]? = some c → c.vars.arr ≠ b.vars.arr :=
      fun f c hf hc hq => hf (h.apart f e c b hc hb hq)
    refine ⟨?_, ?_, ?_, h.len, ?_, ?_, ?_, ?_, h.ownView⟩
    · dsimp only
      apply List.ext_getElem?
      intro f
      rw [MState.seen, List.getElem?_map, List.getElem?_set, List.getElem?_set]
      have hlen : a.envs.length = s.envs.length := by rw [← h.envs, MState.seen, List.length_map]
      by_cases hf : e = f
      · subst hf
        rw [if_pos rfl, if_pos he, if_pos rfl, if_pos (by omega)]
        exact congrArg some (Prod.ext rfl hA.read)
      · rw [if_neg hf, if_neg hf, h.get]
        cases hc : s.envs[f]? with
        | none => rfl
        | some c =>
          refine congrArg some (Prod.ext rfl ?_)
          exact hkeep _ (h.wf f c hc) (fun hq => absurd hq (hother f c (fun h => hf h.symm) hc))
    · intro f c hc
      rcases hget f c hc with ⟨-, rfl⟩ | ⟨-, hc⟩
      · exact hA.wf
      · exact (h.wf f c hc).mono hA.grow hA.sizes
    · intro f g c d hc hd hq
      rcases hget f c hc with ⟨hf, rfl⟩ | ⟨hf, hc'⟩ <;> rcases hget g d hd with ⟨hg, rfl⟩ | ⟨hg, hd'⟩
      · omega
      · have h1 := (h.wf g d hd').arr
        rcases hA.arr with ha | ha
        · exact absurd (hq.symm.trans ha) (hother g d hg hd')
        · dsimp only at hq; omega
      · have h1 := (h.wf f c hc').arr
        rcases hA.arr with ha | ha
        · exact absurd (hq.trans ha) (hother f c hf hc')
        · dsimp only at hq; omega
      · exact h.apart f g c d hc' hd' hq
    · intro i t ht
      exact (h.hwf i t ht).mono hA.grow hA.sizes
    · intro i t l ht hl
      exact (hkeep t (h.hwf i t ht) fun hq => h.behind i t l ht hl e b hb hq.symm).trans (h.view i t l ht hl)
    · intro i t l ht hl f c hc hq
      rcases hget f c hc with ⟨-, rfl⟩ | ⟨-, hc⟩
      · have h1 := (h.hwf i t ht).arr
        dsimp only at hq ⊢
        rcases hA.arr with ha | ha
        · have h2 := h.behind i t l ht hl e b hb (ha.symm.trans hq)
          have h3 := hA.off ha
          omega
        · omega
      · exact h.behind i t l ht hl f c hc hq
    · intro i t ht hl f c hc hq
      rcases hget f c hc with ⟨-, rfl⟩ | ⟨-, hc⟩
      · have h1 := (h.hwf i t ht).arr
        dsimp only at hq
        rcases hA.arr with ha | ha
        · exact h.ownEnv i t ht hl e b hb (ha.symm.trans hq)
        · omega
      · exact h.ownEnv i t ht hl f c hc hq

/-- The client's memory changes: arrays of environments and of returned slices do not. -/
theorem Sim.client {s : MState R} {a : VState R} (h : Sim s a) {μ' : VMem R} (hg : s.mem.length ≤ μ'.length)
    (hs : ∀ arr < s.mem.length, (μ'.getD arr []).length = (s.mem.getD arr []).length)
    (he : ∀ (e : ℕ) b, s.envs[e]? = some b → b.vars.read μ' = b.vars.read s.mem)
    (hv : ∀ (i : ℕ) t l, s.held[i]? = some t → a.held[i]? = some (some l) → t.read μ' = t.read s.mem) :
    Sim ⟨μ', s.envs, s.held⟩ a := by
  refine ⟨?_, fun e b hb => (h.wf e b hb).mono hg hs, h.apart, h.len, fun i t ht => (h.hwf i t ht).mono hg hs,
    fun i t l ht hl => (hv i t l ht hl).trans (h.view i t l ht hl), h.behind, h.ownEnv, h.ownView⟩
  rw [← h.envs]
  apply List.ext_getElem?
  intro f
  rw [MState.seen, MState.seen, List.getElem?_map, List.getElem?_map]
  cases hc : s.envs[f]? with
  | none => rfl
  | some c => exact congrArg some (Prod.ext rfl (he f c hc))

/-- A slice of the client's own is kept. -/
theorem Sim.keepOwn {s : MState R} {a : VState R} (h : Sim s a) {t : Sl} (ht : t.WF s.mem)
    (h1 : ∀ (e : ℕ) b, s.envs[e]? = some b → b.vars.arr ≠ t.arr)
    (h2 : ∀ (j : ℕ) u l, s.held[j]? = some u → a.held[j]? = some (some l) → u.arr ≠ t.arr) :
    Sim ⟨s.mem, s.envs, s.held ++ [t]⟩ ⟨a.envs, a.held ++ [none]⟩ := by
  have hget : ∀ (i : ℕ) u x, (s.held ++ [t])[i]? = some u → (a.held ++ [none])[i]? = some x →
      (s.held[i]? = some u ∧ a.held[i]? = some x) ∨ (u = t ∧ x = none) := by
    intro i u x hu hx
    have hl := h.len
    by_cases hi : i < s.held.length
    · rw [List.getElem?_append_left hi] at hu
      rw [List.getElem?_append_left (by omega)] at hx
      exact .inl ⟨hu, hx⟩
    · rw [List.getElem?_append_right (by omega)] at hu hx
      rw [← h.len] at hx
      have hi' : i - s.held.length = 0 := by
        have := (List.getElem?_eq_some_iff.mp hu).1
        simpa using this
      rw [hi'] at hu hx
      simp at hu hx
      exact .inr ⟨hu.symm, hx.symm⟩
  have hex : ∀ (i : ℕ) u, (s.held ++ [t])[i]? = some u → ∃ x, (a.held ++ [none])[i]? = some x := by
    intro i u hu
    have h1 := (List.getElem?_eq_some_iff.mp hu).1
    have hl := h.len
    exact ⟨_, List.getElem?_eq_getElem (by simp at h1 ⊢; omega)⟩
  refine ⟨h.envs, h.wf, h.apart, by simp [h.len], ?_, ?_, ?_, ?_, ?_⟩
  · intro i u hu
    obtain ⟨x, hx⟩ := hex i u hu
    rcases hget i u x hu hx with ⟨hu, -⟩ | ⟨rfl, -⟩
    · exact h.hwf i u hu
    · exact ht
  · intro i u l hu hx
    rcases hget i u _ hu hx with ⟨hu, hx⟩ | ⟨-, hx⟩
    · exact h.view i u l hu hx
    · exact absurd hx (by simp)
  · intro i u l hu hx
    rcases hget i u _ hu hx with ⟨hu, hx⟩ | ⟨-, hx⟩
    · exact h.behind i u l hu hx
    · exact absurd hx (by simp)
  · intro i u hu hx
    rcases hget i u _ hu hx with ⟨hu, hx⟩ | ⟨rfl, -⟩
    · exact h.ownEnv i u hu hx
    · exact h1
  · intro i u hu hx j w l hw hy
    rcases hget j w _ hw hy with ⟨hw', hy'⟩ | ⟨-, hy⟩
    · rcases hget i u _ hu hx with ⟨hu, hx⟩ | ⟨hu, -⟩
      · exact h.ownView i u hu hx j w l hw' hy'
      · rw [hu]; exact h2 j w l hw' hy'
    · exact absurd hy (by simp)

/-- The slice of environment `e` is kept. -/
theorem Sim.keepView {s : MState R} {a : VState R} (h : Sim s a) {e : ℕ} {b : BEnv} (hb : s.envs[e]? = some b) :
    Sim ⟨s.mem, s.envs, s.held ++ [b.vars]⟩ ⟨a.envs, a.held ++ [some (b.vars.read s.mem)]⟩ := by
  have hget : ∀ (i : ℕ) u x, (s.held ++ [b.vars])[i]? = some u →
      (a.held ++ [some (b.vars.read s.mem)])[i]? = some x →
      (s.held[i]? = some u ∧ a.held[i]? = some x) ∨ (u = b.vars ∧ x = some (b.vars.read s.mem)) := by
    intro i u x hu hx
    have hl := h.len
    by_cases hi : i < s.held.length
    · rw [List.getElem?_append_left hi] at hu
      rw [List.getElem?_append_left (by omega)] at hx
      exact .inl ⟨hu, hx⟩
    · rw [List.getElem?_append_right (by omega)] at hu hx
      rw [← h.len] at hx
      have hi' : i - s.held.length = 0 := by
        have := (List.getElem?_eq_some_iff.mp hu).1
        simpa using this
      rw [hi'] at hu hx
      simp at hu hx
      exact .inr ⟨hu.symm, hx.symm⟩
  have hex : ∀ (i : ℕ) u, (s.held ++ [b.vars])[i]? = some u →
      ∃ x, (a.held ++ [some (b.vars.read s.mem)])[i]? = some x := by
    intro i u hu
    have h1 := (List.getElem?_eq_some_iff.mp hu).1
    have hl := h.len
    exact ⟨_, List.getElem?_eq_getElem (by simp at h1 ⊢; omega)⟩
  refine ⟨h.envs, h.wf, h.apart, by simp [h.len], ?_, ?_, ?_, ?_, ?_⟩
  · intro i u hu
    obtain ⟨x, hx⟩ := hex i u hu
    rcases hget i u x hu hx with ⟨hu, -⟩ | ⟨rfl, -⟩
    · exact h.hwf i u hu
    · exact h.wf e b hb
  · intro i u l hu hx
    rcases hget i u _ hu hx with ⟨hu, hx⟩ | ⟨rfl, hx⟩
    · exact h.view i u l hu hx
    · exact (Option.some.inj hx).symm
  · intro i u l hu hx f c hc hq
    rcases hget i u _ hu hx with ⟨hu, hx⟩ | ⟨rfl, hx⟩
    · exact h.behind i u l hu hx f c hc hq
    · have := h.apart f e c b hc hb hq
      subst this
      rw [hb] at hc
      cases hc
      exact le_refl _
  · intro i u hu hx
    rcases hget i u _ hu hx with ⟨hu, hx⟩ | ⟨-, hx⟩
    · exact h.ownEnv i u hu hx
    · exact absurd hx (by simp)
  · intro i u hu hx j w l hw hy
    rcases hget i u _ hu hx with ⟨hu, hx⟩ | ⟨-, hx⟩
    · rcases hget j w _ hw hy with ⟨hw, hy⟩ | ⟨rfl, hy⟩
      · exact h.ownView i u hu hx j w l hw hy
      · exact h.ownEnv i u hu hx e b hb
    · exact absurd hx (by simp)

theorem Sim.held {s : MState R} {a : VState R} (h : Sim s a) {i : ℕ} {t : Sl} (ht : s.held[i]? = some t) :
    i < a.held.length := by
  rw [← h.len]
  exact (List.getElem?_eq_some_iff.mp ht).1

/-- A slice that is not returned by `AllTrackedVariables` is the client's own. -/
theorem Sim.own {s : MState R} {a : VState R} (h : Sim s a) {i : ℕ} {t : Sl} (ht : s.held[i]? = some t)
    (hf : ∀ l, a.held[i]? ≠ some (some l)) : a.held[i]? = some none := by
  rw [List.getElem?_eq_getElem (h.held ht)] at hf ⊢
  cases hx : a.held[i]'(h.held ht) with
  | none => rfl
  | some l => exact absurd (congrArg some hx) (hf l)

end NoNum

theorem Sim.step {s : MState R} {a : VState R} (h : Sim s a) {o : MOp R} (ho : o.Fine a) :
    Sim (s.step o) (a.step o) := by
  have hmod : ∀ (e : ℕ) b (f : String × List (Var R) → String × List (Var R)), s.envs[e]? = some b →
      a.envs.modify e f = a.envs.set e (f (b.name, b.vars.read s.mem)) := by
    intro e b f hb
    have hx := h.get e
    rw [hb] at hx
    apply List.ext_getElem?
    intro k
    rw [List.getElem?_modify, List.getElem?_set]
    by_cases hk : e = k
    · subst hk
      simp only [if_pos, hx]
      rw [if_pos (List.getElem?_eq_some_iff.mp hx).1]
      rfl
    · simp [hk]
  have hmod0 : ∀ (e : ℕ) (f : String × List (Var R) → String × List (Var R)), s.envs[e]? = none →
      a.envs.modify e f = a.envs := by
    intro e f hb
    have hx := h.get e
    rw [hb] at hx
    apply List.ext_getElem?
    intro k
    rw [List.getElem?_modify]
    by_cases hk : e = k
    · subst hk
      simp [hx]
    · simp [hk]
  cases o with
  | make name =>
    have hread : ∀ u : Sl, u.WF s.mem → u.read (s.mem ++ [[]]) = u.read s.mem := fun u hu =>
      Sl.read_congr fun k _ => by rw [getD_snoc hu.arr]
    have h' := h.client (μ' := s.mem ++ [[]]) (by simp) (fun arr ha => by rw [getD_snoc ha])
      (fun e b hb => hread _ (h.wf e b hb)) (fun i t l ht _ => hread _ (h.hwf i t ht))
    have hget : ∀ (f : ℕ) c, (s.envs ++ [⟨name, ⟨s.mem.length, 0, 0, 0⟩⟩])[f]? = some c →
        s.envs[f]? = some c ∨ (f = s.envs.length ∧ c = ⟨name, ⟨s.mem.length, 0, 0, 0⟩⟩) := by
      intro f c hc
      by_cases hf : f < s.envs.length
      · rw [List.getElem?_append_left hf] at hc
        exact .inl hc
      · rw [List.getElem?_append_right (by omega)] at hc
        have hi' : f - s.envs.length = 0 := by
          have := (List.getElem?_eq_some_iff.mp hc).1
          simpa using this
        rw [hi'] at hc
        simp at hc
        exact .inr ⟨by omega, hc.symm⟩
    refine ⟨?_, ?_, ?_, h.len, h'.hwf, h'.view, ?_, ?_, h.ownView⟩
    · have e1 := h'.envs
      simp only [MState.seen, MState.step, makeBasicEnvironment, VState.step, List.map_append] at e1 ⊢
      rw [e1]
      rfl
    · intro f c hc
      rcases hget f c hc with hc | ⟨-, rfl⟩
      · exact h'.wf f c hc
      · exact ⟨by simp [MState.step, makeBasicEnvironment], le_refl _, by simp⟩
    · intro f g c d hc hd hq
      rcases hget f c hc with hc | ⟨hf, rfl⟩ <;> rcases hget g d hd with hd | ⟨hg, rfl⟩
      · exact h.apart f g c d hc hd hq
      · have := (h.wf f c hc).arr
        dsimp only at hq; omega
      · have := (h.wf g d hd).arr
        dsimp only at hq; omega
      · omega
    · intro i t l ht hl f c hc hq
      rcases hget f c hc with hc | ⟨-, rfl⟩
      · exact h.behind i t l ht hl f c hc hq
      · have := (h.hwf i t ht).arr
        dsimp only at hq; omega
    · intro i t ht hl f c hc hq
      rcases hget f c hc with hc | ⟨-, rfl⟩
      · exact h.ownEnv i t ht hl f c hc hq
      · have := (h.hwf i t ht).arr
        dsimp only at hq; omega
  | track e v spare =>
    simp only [MState.step, VState.step]
    cases hb : s.envs[e]? with
    | none => rw [hmod0 e _ hb]; exact h
    | some b => rw [hmod e b _ hb]; exact h.track hb v spare
  | new binary e spare =>
    simp only [MState.step, VState.step]
    cases hb : s.envs[e]? with
    | none => rw [hmod0 e _ hb]; exact h
    | some b =>
      rw [hmod e b _ hb]
      dsimp only
      rw [(h.wf e b hb).read_length]
      exact h.track hb _ spare
  | list e =>
    simp only [MState.step, VState.step]
    rw [h.get e]
    cases hb : s.envs[e]? with
    | none => exact h
    | some b => exact h.keepView hb
  | copy i spare =>
    simp only [MState.step, VState.step]
    cases ht : s.held[i]? with
    | none => 
      rw [if_neg (by rw [← h.len]; exact not_lt.mpr (List.getElem?_eq_none_iff.mp ht))]
      exact h
    | some t =>
      rw [if_pos (h.held ht)]
      have hread : ∀ u : Sl, u.WF s.mem → u.read (s.mem ++ [t.read s.mem ++ spare]) = u.read s.mem := fun u hu =>
        Sl.read_congr fun k _ => by rw [getD_snoc hu.arr]
      have h' := h.client (μ' := s.mem ++ [t.read s.mem ++ spare]) (by simp) (fun arr ha => by rw [getD_snoc ha])
        (fun e b hb => hread _ (h.wf e b hb)) (fun i t l ht _ => hread _ (h.hwf i t ht))
      refine h'.keepOwn (t := ⟨s.mem.length, 0, t.len, t.len + spare.length⟩) ?_ ?_ ?_
      · refine ⟨by simp, by simp, ?_⟩
        dsimp only
        rw [getD_last]
        simp [(h.hwf i t ht).read_length]
      · intro f c hc hq
        have := (h.wf f c hc).arr
        dsimp only at hq; omega
      · intro j u l hu _ hq
        have := (h.hwf j u hu).arr
        dsimp only at hq; omega
  | write i k v =>
    simp only [MState.step, VState.step]
    cases ht : s.held[i]? with
    | none => exact h
    | some t =>
      dsimp only
      split
      · next hk =>
        have hn := h.own ht ho
        have hw := h.hwf i t ht
        have hp : t.off + k + 1 ≤ (s.mem.getD t.arr []).length := by
          have := hw.cap
          have := hw.len
          omega
        refine h.client (by simp) (fun arr _ => modify_length hw.arr hp arr) ?_ ?_
        · exact fun e b hb => Sl.read_congr fun k _ => modify_frame hw.arr hp (.inl (h.ownEnv i t ht hn e b hb))
        · exact fun j u l hu hl => Sl.read_congr fun k _ =>
            modify_frame hw.arr hp (.inl (h.ownView i t ht hn j u l hu hl))
      · exact h
  | append i v spare =>
    simp only [MState.step, VState.step]
    cases ht : s.held[i]? with
    | none => 
      rw [if_neg (by rw [← h.len]; exact not_lt.mpr (List.getElem?_eq_none_iff.mp ht))]
      exact h
    | some t =>
      rw [if_pos (h.held ht)]
      have hn := h.own ht ho
      have hA := append1_spec (h.hwf i t ht) v spare
      dsimp only
      generalize append1 s.mem t v spare = r at hA ⊢
      obtain ⟨μ', t'⟩ := r
      dsimp only at hA ⊢
      have h' := h.client (μ' := μ') hA.grow hA.sizes
        (fun e b hb => Sl.read_congr fun k _ => hA.frame _ (h.wf e b hb).arr k (.inl (h.ownEnv i t ht hn e b hb)))
        (fun j u l hu hl => Sl.read_congr fun k _ =>
          hA.frame _ (h.hwf j u hu).arr k (.inl (h.ownView i t ht hn j u l hu hl)))
      refine h'.keepOwn (t := t') hA.wf ?_ ?_
      · intro f c hc hq
        have := (h.wf f c hc).arr
        rcases hA.arr with ha | ha
        · exact h.ownEnv i t ht hn f c hc (hq.trans ha)
        · omega
      · intro j u l hu hl hq
        have := (h.hwf j u hu).arr
        rcases hA.arr with ha | ha
        · exact h.ownView i t ht hn j u l hu hl (hq.trans ha)
        · omega
  | dup e => exact ho.elim

theorem Sim.run {s : MState R} {a : VState R} (h : Sim s a) {ops : List (MOp R)} (ho : FineOps a ops) :
    Sim (s.run ops) (a.run ops) := by
  induction ops generalizing s a with
  | nil => exact h
  | cons o os ih => exact ih (h.step ho.1) ho.2

omit [GoNum R] in
theorem Sim.init : Sim (MState.init : MState R) VState.init := by
  have hget : ∀ (f : ℕ) c, (MState.init : MState R).envs[f]? = some c →
      f = 0 ∧ c = ⟨"DefaultEnvironment", ⟨0, 0, 0, 0⟩⟩ := by
    intro f c hc
    have hf := (List.getElem?_eq_some_iff.mp hc).1
    have hf : f = 0 := by simpa [MState.init, makeBasicEnvironment] using hf
    subst hf
    exact ⟨rfl, (Option.some.inj hc).symm⟩
  refine ⟨rfl, ?_, ?_, rfl, ?_, ?_, ?_, ?_, ?_⟩
  · intro f c hc
    obtain ⟨-, rfl⟩ := hget f c hc
    exact ⟨by simp [MState.init, makeBasicEnvironment], le_refl _, by simp⟩
  · intro f g c d hc hd _
    exact (hget f c hc).1.trans (hget g d hd).1.symm
  all_goals
    intro i t
    intros
    simp_all [MState.init]

/-! ## The lists as values -/

omit [GoNum R] in
/-- `trackIn` is what `TrackVariable` does to the list in `Model/Env.lean`. -/
theorem trackIn_eq (e : ℕ) (v : Var R) (w : Envs R) : (trackVariable e v w).2 e = trackIn (w e) v := by
  unfold trackVariable trackIn
  split <;> simp [Envs.set]

omit [GoNum R] in
theorem trackIn_prefix (l : List (Var R)) (v : Var R) : l <+: trackIn l v := by
  unfold trackIn
  split
  · exact List.prefix_refl _
  · exact List.prefix_append _ _

omit [GoNum R] in
theorem trackIn_nodup {l : List (Var R)} (h : (l.map Var.id).Nodup) (v : Var R) : ((trackIn l v).map Var.id).Nodup := by
  unfold trackIn
  split
  · exact h
  · next hn =>
    rw [List.map_append, List.nodup_append]
    refine ⟨h, by simp, ?_⟩
    intro x hx y hy hxy
    simp at hy
    subst hy
    apply hn
    rw [List.any_eq_true]
    obtain ⟨z, hz, rfl⟩ := List.mem_map.mp hx
    exact ⟨z, hz, by simp [hxy]⟩

/-- Environments are never removed, keep their names, and their lists grow at the end. -/
theorem VState.step_prefix (a : VState R) (o : MOp R) {e : ℕ} {n : String} {l : List (Var R)}
    (h : a.envs[e]? = some (n, l)) : ∃ l', (a.step o).envs[e]? = some (n, l') ∧ l <+: l' := by
  have hmod : ∀ (f : ℕ) (g : List (Var R) → List (Var R)), (∀ l, l <+: g l) →
      ∃ l', (a.envs.modify f (fun x => (x.1, g x.2)))[e]? = some (n, l') ∧ l <+: l' := by
    intro f g hg
    rw [List.getElem?_modify, h]
    by_cases hf : f = e
    · exact ⟨g l, by simp [hf], hg l⟩
    · exact ⟨l, by simp [hf], List.prefix_refl _⟩
  have happ : ∀ x, ∃ l', (a.envs ++ [x])[e]? = some (n, l') ∧ l <+: l' := fun x =>
    ⟨l, by rw [List.getElem?_append_left (List.getElem?_eq_some_iff.mp h).1]; exact h, List.prefix_refl _⟩
  have hsame : ∃ l', a.envs[e]? = some (n, l') ∧ l <+: l' := ⟨l, h, List.prefix_refl _⟩
  cases o with
  | make name => exact happ _
  | track f v sp => exact hmod f (fun l => trackIn l v) fun l => trackIn_prefix l v
  | new bin f sp => exact hmod f (fun l => trackIn l (newVarValue bin l.length f)) fun l => trackIn_prefix l _
  | list f => simp only [VState.step]; split <;> exact hsame
  | copy i sp => simp only [VState.step]; split <;> exact hsame
  | write i k v => exact hsame
  | append i v sp => simp only [VState.step]; split <;> exact hsame
  | dup f =>
    simp only [VState.step]
    split
    · exact hsame
    · exact happ _

theorem VState.run_prefix (a : VState R) (ops : List (MOp R)) {e : ℕ} {n : String} {l : List (Var R)}
    (h : a.envs[e]? = some (n, l)) : ∃ l', (a.run ops).envs[e]? = some (n, l') ∧ l <+: l' := by
  induction ops generalizing a l with
  | nil => exact ⟨l, h, List.prefix_refl _⟩
  | cons o os ih =>
    obtain ⟨l1, h1, p1⟩ := a.step_prefix o h
    obtain ⟨l2, h2, p2⟩ := ih _ h1
    exact ⟨l2, h2, p1.trans p2⟩

/-- What was held is held later. -/
theorem VState.step_held (a : VState R) (o : MOp R) {i : ℕ} {x : Option (List (Var R))}
    (h : a.held[i]? = some x) : (a.step o).held[i]? = some x := by
  have happ : ∀ y, (a.held ++ [y])[i]? = some x := fun y => by
    rw [List.getElem?_append_left (List.getElem?_eq_some_iff.mp h).1]; exact h
  cases o with
  | make name => exact h
  | track f v sp => exact h
  | new bin f sp => exact h
  | list f =>
    simp only [VState.step]
    split
    · exact h
    · exact happ _
  | copy j sp =>
    simp only [VState.step]
    split
    · exact happ _
    · exact h
  | write j k v => exact h
  | append j v sp =>
    simp only [VState.step]
    split
    · exact happ _
    · exact h
  | dup f => simp only [VState.step]; split <;> exact h

theorem VState.run_held (a : VState R) (ops : List (MOp R)) {i : ℕ} {x : Option (List (Var R))}
    (h : a.held[i]? = some x) : (a.run ops).held[i]? = some x := by
  induction ops generalizing a with
  | nil => exact h
  | cons o os ih => exact ih _ (a.step_held o h)

theorem VState.step_nodup (a : VState R) (o : MOp R) (h : ∀ x ∈ a.envs, (x.2.map Var.id).Nodup) :
    ∀ x ∈ (a.step o).envs, (x.2.map Var.id).Nodup := by
  have hmod : ∀ (f : ℕ) (g : List (Var R) → List (Var R)),
      (∀ l : List (Var R), (l.map Var.id).Nodup → ((g l).map Var.id).Nodup) →
      ∀ x ∈ a.envs.modify f (fun x => (x.1, g x.2)), (x.2.map Var.id).Nodup := by
    intro f g hg x hx
    obtain ⟨k, hk⟩ := List.mem_iff_getElem?.mp hx
    rw [List.getElem?_modify] at hk
    cases hy : a.envs[k]? with
    | none => rw [hy] at hk; exact absurd hk (by simp)
    | some y =>
      rw [hy] at hk
      have hy' := h y (List.mem_of_getElem? hy)
      by_cases hf : f = k
      · simp [hf] at hk
        rw [← hk]
        exact hg _ hy'
      · simp [hf] at hk
        rw [← hk]
        exact hy'
  cases o with
  | make name =>
    intro x hx
    rcases List.mem_append.mp hx with hx | hx
    · exact h x hx
    · simp at hx
      simp [hx]
  | track f v sp => exact hmod f (fun l => trackIn l v) fun l hl => trackIn_nodup hl v
  | new bin f sp => exact hmod f (fun l => trackIn l (newVarValue bin l.length f)) fun l hl => trackIn_nodup hl _
  | list f => simp only [VState.step]; split <;> exact h
  | copy i sp => simp only [VState.step]; split <;> exact h
  | write i k v => exact h
  | append i v sp => simp only [VState.step]; split <;> exact h
  | dup f =>
    simp only [VState.step]
    cases hf : a.envs[f]? with
    | none => exact h
    | some y =>
      intro x hx
      rcases List.mem_append.mp hx with hx | hx
      · exact h x hx
      · simp at hx
        rw [hx]
        exact h y (List.mem_of_getElem? hf)

/-! ## C71 -/

/-- If the client writes only to copies, then the environments hold what the calls tracked, as if every list
were a value of its own. -/
theorem envMem_seen_partial {ops : List (MOp R)} (ho : FineOps VState.init ops) :
    (MState.init.run ops).seen = (VState.init.run ops).envs := (Sim.init.run ho).envs

theorem fineOps_append {a : VState R} {p q : List (MOp R)} : FineOps a (p ++ q) ↔ FineOps a p ∧ FineOps (a.run p) q := by
  induction p generalizing a with
  | nil => simp [FineOps, VState.run]
  | cons o os ih =>
    simp only [List.cons_append, FineOps, ih, and_assoc]
    rfl

/-- What `AllTrackedVariables` returned is a snapshot: whatever is called later, it reads as the list of the
environment at that time, which stays a prefix of the list of the environment. -/
theorem allTracked_snapshot_partial {pre post : List (MOp R)} {e : ℕ} {n : String} {l : List (Var R)}
    (ho : FineOps VState.init (pre ++ .list e :: post)) (he : (MState.init.run pre).seen[e]? = some (n, l)) :
    ∃ t l', (MState.init.run (pre ++ .list e :: post)).held[(MState.init.run pre).held.length]? = some t ∧
      t.read (MState.init.run (pre ++ .list e :: post)).mem = l ∧
      (MState.init.run (pre ++ .list e :: post)).seen[e]? = some (n, l') ∧ l <+: l' := by
  have hS := Sim.init.run ho
  have hP := Sim.init.run (fineOps_append.mp ho).1
  rw [hP.envs] at he
  have hrun : (VState.init : VState R).run (pre ++ .list e :: post) = ((VState.init.run pre).step (.list e)).run post := by
    simp [VState.run, List.foldl_append]
  have hh : ((VState.init.run pre).step (.list e)).held[(MState.init.run pre).held.length]? = some (some l) := by
    simp only [VState.step, he]
    rw [hP.len]
    simp
  have hh' := VState.run_held _ post hh
  rw [← hrun] at hh'
  have hlt := (List.getElem?_eq_some_iff.mp hh').1
  rw [← hS.len] at hlt
  obtain ⟨l1, h1, p1⟩ := (VState.init.run pre).step_prefix (.list e) he
  obtain ⟨l2, h2, p2⟩ := VState.run_prefix _ post h1
  rw [← hrun] at h2
  exact ⟨_, l2, List.getElem?_eq_getElem hlt, hS.view _ _ l (List.getElem?_eq_getElem hlt) hh',
    by rw [hS.envs]; exact h2, p1.trans p2⟩

/-- No two tracked variables of an environment have the same ID. -/
theorem envMem_nodup_partial {ops : List (MOp R)} (ho : FineOps VState.init ops) :
    ∀ x ∈ (MState.init.run ops).seen, (x.2.map Var.id).Nodup := by
  rw [envMem_seen_partial ho]
  have : ∀ (ops : List (MOp R)) (a : VState R), (∀ x ∈ a.envs, (x.2.map Var.id).Nodup) →
      ∀ x ∈ (a.run ops).envs, (x.2.map Var.id).Nodup := by
    intro ops
    induction ops with
    | nil => exact fun a h => h
    | cons o os ih => exact fun a h => ih _ (a.step_nodup o h)
  exact this ops _ (by simp [VState.init])

/-- Names do not change, and environments are not lost. -/
theorem envMem_name_partial {pre post : List (MOp R)} {e : ℕ} {n : String} {l : List (Var R)}
    (ho : FineOps VState.init (pre ++ post)) (he : (MState.init.run pre).seen[e]? = some (n, l)) :
    ∃ l', (MState.init.run (pre ++ post)).seen[e]? = some (n, l') ∧ l <+: l' := by
  rw [envMem_seen_partial (fineOps_append.mp ho).1] at he
  rw [envMem_seen_partial ho]
  obtain ⟨l', h1, h2⟩ := VState.run_prefix _ post he
  refine ⟨l', ?_, h2⟩
  rw [← h1]
  simp [VState.run, List.foldl_append]

omit [GoNum R] in
/-- `MakeBasicEnvironment`: the name is the one given, and nothing is tracked. -/
theorem makeBasicEnvironment_spec (μ : VMem R) (name : String) :
    (makeBasicEnvironment μ name).2.getName = name ∧
      (makeBasicEnvironment μ name).2.allTracked.read (makeBasicEnvironment μ name).1 = [] := by
  constructor
  · rfl
  · simp [makeBasicEnvironment, BEnv.allTracked, Sl.read]

omit [GoNum R] in
/-- `TrackVariable` on any well-formed environment: the answer is true exactly if no tracked variable has
the ID, and then the list gains the variable at its end.  The name stays. -/
theorem track_mem_spec {μ : VMem R} {b : BEnv} (hb : b.vars.WF μ) (v : Var R) (spare : List (Var R)) :
    ((b.track μ v spare).1 = true ↔ ∀ x ∈ b.allTracked.read μ, x.id ≠ v.id) ∧
      (b.track μ v spare).2.2.allTracked.read (b.track μ v spare).2.1 =
        (if (b.track μ v spare).1 then b.allTracked.read μ ++ [v] else b.allTracked.read μ) ∧
      (b.track μ v spare).2.2.getName = b.getName := by
  unfold BEnv.track BEnv.allTracked
  split
  · next h =>
    refine ⟨⟨fun h => absurd h (by simp), fun hn => ?_⟩, rfl, rfl⟩
    obtain ⟨x, hx, he⟩ := List.any_eq_true.mp h
    exact absurd (by simpa using he) (hn x hx)
  · next h =>
    refine ⟨⟨fun _ x hx he => h (List.any_eq_true.mpr ⟨x, hx, by simp [he]⟩), fun _ => rfl⟩, ?_, rfl⟩
    exact (append1_spec hb v spare).read

/-! ## The full claim is false -/

variable (R) in
/-- The full claim: what the client does with a returned list does not change the environments. -/
def ListIsCopy : Prop :=
  ∀ ops : List (MOp R), (∀ e, MOp.dup e ∉ ops) → (MState.init.run ops).seen = (VState.init.run ops).envs

variable (R) in
/-- Three variables in the default environment.  The arrays are those of Go's runtime, which doubles: after
the third there is room for a fourth. -/
def threeVars : List (MOp R) :=
  [.new false 0 [], .new false 0 [], .new false 0 [newVarValue false 0 0]]

variable (R) in
/-- A fourth variable, after the client has taken the list; then the client appends to its list. -/
def appendToList : List (MOp R) :=
  threeVars R ++ [.list 0, .new false 0 [], .append 0 (newVarValue true 7 0) []]

/-- An `append` to a returned list replaces a tracked variable: the environment has lost variable 3. -/
theorem appendToList_ids :
    (MState.init.run (appendToList F64)).seen.map (fun x => x.2.map Var.id) = [[0, 1, 2, 7]] ∧
      (VState.init.run (appendToList F64)).envs.map (fun x => x.2.map Var.id) = [[0, 1, 2, 3]] := by decide +kernel

/-- The full claim is false: after an `append` to a returned list the environment tracks another variable than
the one it created. -/
theorem listIsCopy_append_false : ¬ ListIsCopy F64 := by
  intro h
  have h1 := h (appendToList F64) (by intro e he; simp [appendToList, threeVars] at he)
  have h2 := appendToList_ids
  rw [h1, h2.2] at h2
  exact absurd h2.1 (by decide)

variable (R) in
/-- The client stores variable 1 in place 0 of the returned list. -/
def writeToList : List (MOp R) := threeVars R ++ [.list 0, .write 0 0 (newVarValue false 1 0)]

/-- A write to a returned list: two tracked variables have the same ID. -/
theorem envMem_nodup_write_false :
    ¬ ∀ ops : List (MOp F64), (∀ e, MOp.dup e ∉ ops) →
      ∀ x ∈ (MState.init.run ops).seen, (x.2.map Var.id).Nodup := by
  intro h
  have h1 : (MState.init.run (writeToList F64)).seen.map (fun x => x.2.map Var.id) = [[1, 1, 2]] := by decide +kernel
  have h2 := h (writeToList F64) (by intro e he; simp [writeToList, threeVars] at he)
  have h3 : ([1, 1, 2] : List Nat) ∈ (MState.init.run (writeToList F64)).seen.map (fun x => x.2.map Var.id) := by
    rw [h1]; simp
  obtain ⟨x, hx, he⟩ := List.mem_map.mp h3
  have h4 := h2 x hx
  rw [show x.2.map Var.id = [1, 1, 2] from he] at h4
  exact absurd h4 (by decide)

variable (R) in
/-- The struct of the default environment is copied; then each environment gets one more variable. -/
def dupEnvironment : List (MOp R) := threeVars R ++ [.dup 0, .new false 0 [], .new true 1 []]

/-- Two copies of the struct of an environment share an array: the binary variable of the copy replaces the
continuous one (byte `'C'` = 67) of the original. -/
theorem dupEnvironment_types :
    (MState.init.run (dupEnvironment F64)).seen.map (fun x => x.2.map Var.vtype) =
        [[67, 67, 67, 66], [67, 67, 67, 66]] ∧
      (VState.init.run (dupEnvironment F64)).envs.map (fun x => x.2.map Var.vtype) =
        [[67, 67, 67, 67], [67, 67, 67, 66]] := by decide +kernel

/-- Nor may the struct of an environment be copied: the two environments then replace each other's variables. -/
theorem dupEnvironment_false :
    ¬ ∀ ops : List (MOp F64), (MState.init.run ops).seen = (VState.init.run ops).envs := by
  intro h
  have h1 := dupEnvironment_types
  rw [h, h1.2] at h1
  exact absurd h1.1 (by decide)

variable (R) in
/-- The client appends to its list, then a variable is created. -/
def appendThenNew : List (MOp R) :=
  threeVars R ++ [.list 0, .append 0 (newVarValue true 7 0) [], .new false 0 []]

/-- What the client appended to a returned list is replaced by the next variable of the environment. -/
theorem appendThenNew_ids :
    ((MState.init.run (appendThenNew F64)).held.map fun t =>
      (t.read (MState.init.run (appendThenNew F64)).mem).map Var.id) = [[0, 1, 2], [0, 1, 2, 3]] := by decide +kernel

/-! ## A program that meets the hypotheses -/

variable (R) in
/-- Two environments; the client takes a list, copies it, writes and appends to the copy, and creates more. -/
def fineProgram : List (MOp R) :=
  threeVars R ++ [.make "other", .new true 1 [newVarValue true 0 0], .list 0] ++
    [.copy 0 [newVarValue true 9 0], .write 1 0 (newVarValue true 8 0), .append 1 (newVarValue true 7 0) [],
      .new false 0 [], .track 1 (newVarValue false 5 0) []]

theorem fineProgram_fine : FineOps VState.init (fineProgram R) := by
  simp [fineProgram, threeVars, FineOps, MOp.Fine, VState.step, VState.init]

example : (MState.init.run (fineProgram F64)).seen.map (fun x => (x.1, x.2.map Var.id)) =
      [("DefaultEnvironment", [0, 1, 2, 3]), ("other", [0, 5])] ∧
    ((MState.init.run (fineProgram F64)).held.map fun t =>
      (t.read (MState.init.run (fineProgram F64)).mem).map Var.id) = [[0, 1, 2], [8, 1, 2], [8, 1, 2, 7]] := by decide +kernel

example : FineOps VState.init (threeVars R ++ .list 0 :: [.new false 0 []]) ∧
    ∃ n l, (MState.init.run (threeVars R)).seen[0]? = some (n, l) ∧ l.length = 3 :=
  ⟨by simp [threeVars, FineOps, MOp.Fine], _, _, rfl, rfl⟩

end Verif
