import Verif.Model.Heap
import Verif.Props.ArrayDeriv

/-!
# C10: differentiation and shared exponent slices

`Monomial.DerivativeWrt` decrements the exponent in place when it is at least two.  The theorems say
exactly what a call changes, that nothing changes when the variable occurs at most to the first power,
and that for expressions without shared slices the value model of `DerivativeWrt` is the returned
value.  C10 itself is false.
-/

set_option linter.unusedSectionVars false

namespace Verif

open MvPolynomial

variable {R : Type}

/-- The expression after `DerivativeWrt(v)`: exponents of `v` of at least two are decremented. -/
def Scalar.afterDerivative [GoNum R] (e : Scalar R) (v : Var R) : Scalar R :=
  match e with
  | .k c => .k c
  | .var w => .var w
  | .mono m => .mono (m.afterDerivative v)
  | .poly p => .poly ⟨p.monos.map (·.afterDerivative v)⟩

/-- No monomial of `e` contains `v` to a power above one. -/
def Scalar.LinearIn (v : Var R) : Scalar R → Prop
  | .k _ => True
  | .var _ => True
  | .mono m => m.degs v.id ≤ 1
  | .poly p => ∀ m ∈ p.monos, m.degs v.id ≤ 1

/-- All addresses exist. -/
def HScalar.Valid (h : ExpHeap) (e : HScalar R) : Prop := ∀ a ∈ e.addrs, a < h.length

theorem HMono.load_congr {h h' : ExpHeap} {m : HMono R} (e : h'.getD m.addr [] = h.getD m.addr []) :
    m.load h' = m.load h := by
  unfold HMono.load
  rw [e]

/-- An expression is unchanged if its exponent slices are. -/
theorem HScalar.load_congr {h h' : ExpHeap} {e : HScalar R}
    (he : ∀ a ∈ e.addrs, h'.getD a [] = h.getD a []) : e.load h' = e.load h := by
  cases e with
  | k c => rfl
  | var v => rfl
  | mono m => exact congrArg Scalar.mono (HMono.load_congr (he _ (by simp [HScalar.addrs])))
  | poly p =>
    refine congrArg (fun l => Scalar.poly ⟨l⟩) (List.map_inj_left.mpr fun m hm => ?_)
    exact HMono.load_congr (he _ (List.mem_map_of_mem hm))

theorem getD_append_left {h t : ExpHeap} {a : ℕ} (ha : a < h.length) :
    (h ++ t).getD a [] = h.getD a [] := by
  rw [List.getD_eq_getElem?_getD, List.getD_eq_getElem?_getD, List.getElem?_append_left ha]

section Struct
variable [GoNum R]

/-- What one call on a monomial does. -/
structure MonoCall (h : ExpHeap) (m : HMono R) (v : Var R) (x : HScalar R) (h' : ExpHeap) : Prop where
  value : (m.load h).derivative v = .ok (x.load h')
  len : h.length ≤ h'.length
  frame : ∀ a, a < h.length → a ≠ m.addr → h'.getD a [] = h.getD a []
  self : m.load h' = (m.load h).afterDerivative v
  addrs : ∀ a ∈ x.addrs, a < h'.length ∧ (a = m.addr ∨ h.length ≤ a)
  kind : (∃ c, x = .k c) ∨ ∃ d, x = .mono d

theorem Mono.check_lengths {m : Mono R} : m.check = .ok () ↔ m.exps.length = m.vars.length := by
  unfold Mono.check
  split
  · next h => exact ⟨fun h' => (by cases h'), fun h' => absurd h' h⟩
  · next h => exact ⟨fun _ => not_not.mp h, fun _ => rfl⟩

theorem HMono.derivative_checked {h : ExpHeap} {m : HMono R} (ha : m.addr < h.length)
    (hm : (m.load h).check = .ok ()) {v : Var R} (hv : v.check = .ok ()) :
    Go.Ok (m.derivative v h) (fun r => MonoCall h m v r.1 r.2) := by
  have hcur : h.getD m.addr [] = h[m.addr] := by
    rw [List.getD_eq_getElem?_getD, List.getElem?_eq_getElem ha, Option.getD_some]
  unfold HMono.derivative
  rw [hm, hv, Go.ok_bind, Go.ok_bind]
  have hval : (m.load h).derivative v = match findVar v m.vars with
      | none => .ok (.k GoNum.zero)
      | some i =>
        match (h.getD m.addr [])[i]? with
        | none => throw .index
        | some e =>
          if e = 1 ∧ m.vars.length = 1 then .ok (.k m.coeff)
          else if e = 1 then
            .ok (.mono ⟨m.coeff, (h.getD m.addr []).eraseIdx i, m.vars.eraseIdx i⟩)
          else
            .ok (.mono ⟨GoNum.mul m.coeff (GoNum.ofInt e), (h.getD m.addr []).modify i (· - 1), m.vars⟩) := by
    unfold Mono.derivative
    rw [hm, hv, Go.ok_bind, Go.ok_bind]
    rfl
  have hafter : (m.load h).afterDerivative v = match findVar v m.vars with
      | none => m.load h
      | some i =>
        if (h.getD m.addr [])[i]? = some 1 then m.load h
        else { m.load h with exps := (h.getD m.addr []).modify i (· - 1) } := rfl
  cases hf : findVar v m.vars with
  | none =>
    rw [hf] at hval hafter
    exact Go.ok_pure ⟨hval, le_rfl, fun _ _ _ => rfl, hafter.symm, fun a h => (by cases h), Or.inl ⟨_, rfl⟩⟩
  | some i =>
    rw [hf] at hval hafter
    simp only at hval hafter ⊢
    have hie : i < (h.getD m.addr []).length := by
      have := findVar_lt hf
      have h2 : (h.getD m.addr []).length = m.vars.length := Mono.check_lengths.mp hm
      omega
    rw [List.getElem?_eq_getElem hie] at hval hafter ⊢
    simp only at hval hafter ⊢
    by_cases h1 : (h.getD m.addr [])[i] = 1
    · by_cases h2 : m.vars.length = 1
      · rw [if_pos ⟨h1, h2⟩] at hval ⊢
        rw [if_pos (by rw [h1])] at hafter
        exact Go.ok_pure ⟨hval, le_rfl, fun _ _ _ => rfl, hafter.symm, fun a h => (by cases h),
          Or.inl ⟨_, rfl⟩⟩
      · rw [if_neg (fun h => h2 h.2), if_pos h1] at hval ⊢
        rw [if_pos (by rw [h1])] at hafter
        refine Go.ok_pure ⟨?_, by simp, fun a ha' _ => getD_append_left ha', ?_, ?_, Or.inr ⟨_, rfl⟩⟩
        · rw [hval]
          simp only [HScalar.load, HMono.load]
          rw [List.getD_eq_getElem?_getD (l := h ++ _), List.getElem?_append_right le_rfl]
          simp
        · rw [hafter]
          exact HMono.load_congr (getD_append_left ha)
        · intro a h'
          simp only [HScalar.addrs, List.mem_singleton] at h'
          subst h'
          simp
    · rw [if_neg (fun h => h1 h.1), if_neg h1] at hval ⊢
      rw [if_neg (by rw [Option.some.injEq]; exact h1)] at hafter
      have hw : (h.modify m.addr (·.modify i (· - 1))).getD m.addr [] =
          (h.getD m.addr []).modify i (· - 1) := by
        rw [List.getD_eq_getElem?_getD, List.getElem?_modify, List.getElem?_eq_getElem ha, hcur]
        simp
      refine Go.ok_pure ⟨?_, by simp, fun a ha' hne => ?_, ?_, ?_, Or.inr ⟨_, rfl⟩⟩
      · rw [hval]
        simp only [HScalar.load, HMono.load]
        rw [hw]
      · rw [List.getD_eq_getElem?_getD, List.getElem?_modify, List.getD_eq_getElem?_getD]
        simp [Ne.symm hne]
      · rw [hafter]
        unfold HMono.load
        rw [hw]
      · intro a h'
        simp only [HScalar.addrs, List.mem_singleton] at h'
        subst h'
        exact ⟨by simpa using ha, Or.inl rfl⟩

theorem HMono.derivative_ok {h : ExpHeap} {m : HMono R} (ha : m.addr < h.length)
    (hm : (m.load h).Canon) {v : Var R} (hv : v.OK) :
    Go.Ok (m.derivative v h) (fun r => MonoCall h m v r.1 r.2) :=
  HMono.derivative_checked ha hm.check hv.check

theorem Mono.afterDerivative_const {m : Mono R} {v : Var R} (h : m.vars = []) :
    m.afterDerivative v = m := by
  unfold Mono.afterDerivative
  rw [h]
  rfl

/-- What one call on an expression does. -/
structure ScalarCall (h : ExpHeap) (e : HScalar R) (v : Var R) (x : HScalar R) (h' : ExpHeap) :
    Prop where
  value : (e.load h).derivative v = .ok (x.load h')
  len : h.length ≤ h'.length
  frame : ∀ a, a < h.length → a ∉ e.addrs → h'.getD a [] = h.getD a []
  self : e.load h' = (e.load h).afterDerivative v
  addrs : ∀ a ∈ x.addrs, a < h'.length ∧ (a ∈ e.addrs ∨ h.length ≤ a)
  nodup : x.addrs.Nodup

theorem HPoly.derivative_ok {h : ExpHeap} {p : HPoly R} (ha : (HScalar.poly p).Valid h)
    (hnd : (HScalar.poly p).addrs.Nodup) (hp : (p.load h).Canon) {v : Var R} (hv : v.OK) :
    Go.Ok (p.derivative v h) (fun r => ScalarCall h (.poly p) v r.1 r.2) := by
  have hck : (p.load h).check = .ok () := (good_of_univ (s := .poly (p.load h)) hp).check
  have hfold : Go.Ok (p.monos.foldlM (hDerivStep v) ([], h)) (fun st =>
      (p.monos.map (HMono.load h)).foldlM (derivStep v) [] = .ok (st.1.map (HMono.load st.2)) ∧
      h.length ≤ st.2.length ∧
      (∀ a, a < h.length → a ∉ p.monos.map (·.addr) → st.2.getD a [] = h.getD a []) ∧
      (∀ m ∈ p.monos, m.load st.2 = (m.load h).afterDerivative v) ∧
      (∀ d ∈ st.1, d.addr < st.2.length ∧ (d.addr ∈ p.monos.map (·.addr) ∨ h.length ≤ d.addr)) ∧
      (st.1.map (·.addr)).Nodup) := by
    apply Go.foldlM_ok' (hDerivStep v) (fun pre st =>
      (pre.map (HMono.load h)).foldlM (derivStep v) [] = .ok (st.1.map (HMono.load st.2)) ∧
      h.length ≤ st.2.length ∧
      (∀ a, a < h.length → a ∉ pre.map (·.addr) → st.2.getD a [] = h.getD a []) ∧
      (∀ m ∈ pre, m.load st.2 = (m.load h).afterDerivative v) ∧
      (∀ d ∈ st.1, d.addr < st.2.length ∧ (d.addr ∈ pre.map (·.addr) ∨ h.length ≤ d.addr)) ∧
      (st.1.map (·.addr)).Nodup)
    · exact ⟨rfl, le_rfl, fun _ _ _ => rfl, by simp, by simp, by simp⟩
    · rintro pre m ⟨acc, h1⟩ ⟨post, hpost⟩ ⟨hval, hlen, hframe, hself, haddr, hnodup⟩
      simp only at hval hlen hframe hself haddr hnodup ⊢
      have hmem : m ∈ p.monos := by rw [hpost]; simp
      have hma : m.addr < h.length := ha _ (List.mem_map_of_mem hmem)
      have hmpre : m.addr ∉ pre.map (·.addr) := by
        have hnd : (p.monos.map (·.addr)).Nodup := hnd
        rw [hpost, List.map_append, List.map_cons] at hnd
        intro hin
        exact (List.nodup_append.mp hnd).2.2 _ hin _ (by simp) rfl
      have hmload : m.load h1 = m.load h := HMono.load_congr (hframe _ hma hmpre)
      have hmc : (m.load h1).Canon := by
        rw [hmload]
        exact hp.all _ (List.mem_map_of_mem hmem)
      have hne : ∀ d ∈ acc, d.addr ≠ m.addr := by
        intro d hd heq
        rcases (haddr d hd).2 with h2 | h2
        · exact hmpre (heq ▸ h2)
        · omega
      have hnepre : ∀ u ∈ pre, u.addr ≠ m.addr := fun u hu heq =>
        hmpre (heq ▸ List.mem_map_of_mem (f := fun x : HMono R => x.addr) hu)
      have hprea : ∀ u ∈ pre, u.addr < h.length := fun u hu =>
        ha _ (List.mem_map_of_mem (by rw [hpost]; simp [hu]))
      unfold hDerivStep
      simp only [List.map_append, List.map_cons, List.map_nil, List.foldlM_append, hval,
        Go.ok_bind, List.foldlM_cons, List.foldlM_nil]
      have hstep : derivStep v (acc.map (HMono.load h1)) (m.load h) =
          (do
            if m.vars.isEmpty then return acc.map (HMono.load h1)
            match ← (m.load h1).derivative v with
            | .mono d => return acc.map (HMono.load h1) ++ [d]
            | .k c =>
              if GoNum.feq c GoNum.zero then return acc.map (HMono.load h1)
              else return acc.map (HMono.load h1) ++ [kToMono c]
            | _ => throw .other : Go (List (Mono R))) := by
        rw [hmload]; rfl
      by_cases hc : m.vars.isEmpty = true
      · rw [if_pos hc] at hstep ⊢
        rw [hstep]
        refine Go.ok_pure ⟨rfl, hlen, fun a h2 h3 => hframe a h2 fun h4 => h3 (by simp [h4]), ?_, ?_,
          hnodup⟩
        · intro u hu
          rcases List.mem_append.mp hu with hu | hu
          · exact hself u hu
          · rw [List.mem_singleton] at hu
            subst hu
            rw [hmload, Mono.afterDerivative_const (by simpa [HMono.load] using hc)]
        · intro d hd
          exact ⟨(haddr d hd).1, (haddr d hd).2.imp (fun h2 => by simp [h2]) id⟩
      · rw [if_neg hc] at hstep ⊢
        obtain ⟨⟨x, h2⟩, hr1, hr⟩ := HMono.derivative_ok (by omega : m.addr < h1.length) hmc hv
        simp only at hr
        rw [hr1, Go.ok_bind]
        rw [hr.value, Go.ok_bind] at hstep
        have haccload : acc.map (HMono.load h2) = acc.map (HMono.load h1) :=
          List.map_inj_left.mpr fun d hd =>
            HMono.load_congr (hr.frame _ (haddr d hd).1 (hne d hd))
        have hself2 : ∀ u ∈ pre ++ [m], u.load h2 = (u.load h).afterDerivative v := by
          intro u hu
          rcases List.mem_append.mp hu with hu | hu
          · rw [← hself u hu]
            exact HMono.load_congr (hr.frame _ (by have := hprea u hu; omega) (hnepre u hu))
          · rw [List.mem_singleton] at hu
            subst hu
            rw [hr.self, hmload]
        have hframe2 : ∀ a, a < h.length → a ∉ pre.map (·.addr) ++ [m.addr] →
            h2.getD a [] = h.getD a [] := by
          intro a h3 h4
          rw [hr.frame a (by omega) (fun h5 => h4 (by simp [h5])),
            hframe a h3 fun h5 => h4 (by simp [h5])]
        have haddr2 : ∀ d ∈ acc, d.addr < h2.length ∧
            (d.addr ∈ pre.map (·.addr) ++ [m.addr] ∨ h.length ≤ d.addr) := fun d hd =>
          ⟨by have := (haddr d hd).1; have := hr.len; omega,
            (haddr d hd).2.imp (fun h2 => by simp [h2]) id⟩
        rcases hr.kind with ⟨c, rfl⟩ | ⟨d, rfl⟩
        · simp only [HScalar.load] at hstep ⊢
          by_cases h0 : GoNum.feq c GoNum.zero = true
          · rw [if_pos h0] at hstep ⊢
            rw [hstep]
            exact Go.ok_pure ⟨by rw [haccload]; rfl, by have := hr.len; simp only; omega, hframe2,
              hself2, haddr2, hnodup⟩
          · rw [if_neg h0] at hstep ⊢
            rw [hstep]
            refine Go.ok_pure ⟨?_, ?_, ?_, ?_, ?_, ?_⟩
            · have h3 : acc.map (HMono.load (h2 ++ [[]])) = acc.map (HMono.load h1) := by
                rw [← haccload]
                exact List.map_inj_left.mpr fun d hd =>
                  HMono.load_congr (getD_append_left (haddr2 d hd).1)
              simp only [List.map_append, h3, List.map_cons, List.map_nil, HMono.load,
                List.getD_eq_getElem?_getD, List.getElem?_append_right le_rfl, Nat.sub_self]
              rfl
            · have := hr.len; simp only [List.length_append, List.length_singleton]; omega
            · intro a h3 h4
              have := hr.len
              rw [getD_append_left (by omega)]
              exact hframe2 a h3 h4
            · intro u hu
              rw [← hself2 u hu]
              refine HMono.load_congr (getD_append_left ?_)
              have := hr.len
              rcases List.mem_append.mp hu with hu | hu
              · have := hprea u hu; omega
              · rw [List.mem_singleton] at hu
                subst hu
                omega
            · intro d hd
              rcases List.mem_append.mp hd with hd | hd
              · refine ⟨?_, (haddr2 d hd).2⟩
                have := (haddr2 d hd).1
                simp only [List.length_append, List.length_singleton]
                omega
              · rw [List.mem_singleton] at hd
                subst hd
                have := hr.len
                exact ⟨by simp, Or.inr (by simp only; omega)⟩
            · rw [List.map_append, List.nodup_append]
              refine ⟨hnodup, by simp, ?_⟩
              intro a ha' b hb
              obtain ⟨d, hd, rfl⟩ := List.mem_map.mp ha'
              simp only [List.map_cons, List.map_nil, List.mem_singleton] at hb
              subst hb
              have := (haddr2 d hd).1
              omega
        · simp only [HScalar.load] at hstep ⊢
          rw [hstep]
          have hda := hr.addrs d.addr (by simp [HScalar.addrs])
          refine Go.ok_pure ⟨?_, by have := hr.len; simp only; omega, hframe2, hself2, ?_, ?_⟩
          · simp only [List.map_append, haccload, List.map_cons, List.map_nil]
            rfl
          · intro d' hd
            rcases List.mem_append.mp hd with hd | hd
            · exact haddr2 d' hd
            · rw [List.mem_singleton] at hd
              subst hd
              refine ⟨hda.1, ?_⟩
              rcases hda.2 with h3 | h3
              · left; simp [h3]
              · right; omega
          · rw [List.map_append, List.nodup_append]
            refine ⟨hnodup, by simp, ?_⟩
            intro a ha' b hb
            obtain ⟨d', hd, rfl⟩ := List.mem_map.mp ha'
            simp only [List.map_cons, List.map_nil, List.mem_singleton] at hb
            subst hb
            rcases hda.2 with h3 | h3
            · rw [h3]; exact hne d' hd
            · have := (haddr d' hd).1
              omega
  obtain ⟨⟨acc, h'⟩, h1, hval, hlen, hframe, hself, haddr, hnodup⟩ := hfold
  simp only at hval hlen hframe hself haddr hnodup
  unfold HPoly.derivative
  rw [hck, hv.check, Go.ok_bind, Go.ok_bind, h1, Go.ok_bind]
  have hpd : (Scalar.poly (p.load h)).derivative v =
      (if (acc.map (HMono.load h')).isEmpty then .ok (.k GoNum.zero)
        else .ok (.poly ⟨acc.map (HMono.load h')⟩)) := by
    show (p.load h).derivative v = _
    unfold Poly.derivative
    rw [hck, hv.check, Go.ok_bind, Go.ok_bind]
    rw [show (p.load h).monos = p.monos.map (HMono.load h) from rfl, hval, Go.ok_bind]
    split <;> rfl
  have hs : (HScalar.poly p).load h' = ((HScalar.poly p).load h).afterDerivative v := by
    simp only [HScalar.load, Scalar.afterDerivative, HPoly.load, List.map_map]
    congr 2
    exact List.map_inj_left.mpr fun m hm => hself m hm
  by_cases he : acc.isEmpty = true
  · simp only [he, if_true]
    refine Go.ok_pure ⟨?_, hlen, hframe, hs, fun a h => (by cases h), List.nodup_nil⟩
    show (Scalar.poly (p.load h)).derivative v = _
    rw [hpd, if_pos (by simpa using he)]
    rfl
  · simp only [he, if_false, Bool.false_eq_true]
    refine Go.ok_pure ⟨?_, hlen, hframe, hs, ?_, hnodup⟩
    · show (Scalar.poly (p.load h)).derivative v = _
      rw [hpd, if_neg (by simpa using he)]
      rfl
    · intro a h2
      obtain ⟨d, hd, rfl⟩ := List.mem_map.mp h2
      exact haddr d hd

/-- C10, what is true of every heap: a call on an expression whose own slices are not shared with each
other returns the derivative, changes only the exponents of the receiver's slices, and changes those
exactly by decrementing exponents of `v` of at least two. -/
theorem heap_derivative {h : ExpHeap} {e : HScalar R} (ha : e.Valid h) (hnd : e.addrs.Nodup)
    (hc : (e.load h).Canon) {v : Var R} (hv : v.OK) :
    Go.Ok (e.derivative v h) (fun r => ScalarCall h e v r.1 r.2) := by
  cases e with
  | k c =>
    exact Go.ok_pure ⟨rfl, le_rfl, fun _ _ _ => rfl, rfl, fun a h => (by cases h), List.nodup_nil⟩
  | var w =>
    have hw : w.OK := hc
    have hval : (Scalar.var w).derivative v =
        (if w.id = v.id then .ok (.k GoNum.one) else .ok (.k GoNum.zero)) := by
      simp only [Scalar.derivative, hw.check, hv.check, Go.ok_bind]
      rfl
    unfold HScalar.derivative
    simp only [hw.check, hv.check, Go.ok_bind]
    split
    · next hid =>
      rw [if_pos hid] at hval
      exact Go.ok_pure ⟨hval, le_rfl, fun _ _ _ => rfl, rfl, fun a h => (by cases h), List.nodup_nil⟩
    · next hid =>
      rw [if_neg hid] at hval
      exact Go.ok_pure ⟨hval, le_rfl, fun _ _ _ => rfl, rfl, fun a h => (by cases h), List.nodup_nil⟩
  | mono m =>
    refine (HMono.derivative_ok (ha _ (by simp [HScalar.addrs])) hc hv).mono fun r hr => ?_
    refine ⟨hr.value, hr.len, fun a h1 h2 => hr.frame a h1 (by simpa [HScalar.addrs] using h2),
      congrArg Scalar.mono hr.self, fun a h1 => ?_, ?_⟩
    · simpa [HScalar.addrs] using hr.addrs a h1
    · rcases hr.kind with ⟨c, h1⟩ | ⟨d, h1⟩
      · rw [h1]; exact List.nodup_nil
      · rw [h1]; simp [HScalar.addrs]
  | poly p => exact HPoly.derivative_ok ha hnd hc hv

/-- C10: expressions that share no slice with the receiver keep their value. -/
theorem heap_derivative_others {h h' : ExpHeap} {e x e2 : HScalar R} (ha : e.Valid h)
    (hnd : e.addrs.Nodup) (hc : (e.load h).Canon) {v : Var R} (hv : v.OK)
    (hr : e.derivative v h = .ok (x, h')) (ha2 : e2.Valid h) (hdis : ∀ a ∈ e2.addrs, a ∉ e.addrs) :
    e2.load h' = e2.load h := by
  obtain ⟨r, h1, h2⟩ := heap_derivative ha hnd hc hv
  rw [hr, Except.ok.injEq] at h1
  subst h1
  exact HScalar.load_congr fun a h3 => h2.frame a (ha2 a h3) (hdis a h3)

theorem Mono.afterDerivative_eq_iff {m : Mono R} (hm : m.Canon) {v : Var R} :
    m.afterDerivative v = m ↔ m.degs v.id ≤ 1 := by
  refine ⟨fun h => ?_, Mono.afterDerivative_small hm⟩
  by_contra hlt
  have h1 := (Mono.afterDerivative_large hm (v := v) (by omega)).2.2.2
  rw [h] at h1
  have := DFunLike.congr_fun h1 v.id
  simp at this

/-- C10, exact: the receiver is unchanged iff it contains `v` at most to the first power. -/
theorem heap_derivative_unchanged_iff {h h' : ExpHeap} {e x : HScalar R} (ha : e.Valid h)
    (hnd : e.addrs.Nodup) (hc : (e.load h).Canon) {v : Var R} (hv : v.OK)
    (hr : e.derivative v h = .ok (x, h')) :
    e.load h' = e.load h ↔ (e.load h).LinearIn v := by
  obtain ⟨r, h1, h2⟩ := heap_derivative ha hnd hc hv
  rw [hr, Except.ok.injEq] at h1
  subst h1
  rw [h2.self]
  revert hc
  generalize e.load h = s
  intro hc
  cases s with
  | k c => simp [Scalar.afterDerivative, Scalar.LinearIn]
  | var w => simp [Scalar.afterDerivative, Scalar.LinearIn]
  | mono m =>
    simp only [Scalar.afterDerivative, Scalar.LinearIn, Scalar.mono.injEq]
    exact Mono.afterDerivative_eq_iff hc
  | poly p =>
    have hp : p.Canon := hc
    simp only [Scalar.afterDerivative, Scalar.LinearIn, Scalar.poly.injEq]
    rw [← (show (⟨p.monos⟩ : Poly R) = p from rfl), Poly.mk.injEq]
    constructor
    · intro h3 m hm
      have h4 : p.monos.map (·.afterDerivative v) = p.monos.map id := by rw [h3, List.map_id]
      exact (Mono.afterDerivative_eq_iff (hp.all m hm)).mp (List.map_inj_left.mp h4 m hm)
    · intro h3
      have h4 : p.monos.map (·.afterDerivative v) = p.monos.map id :=
        List.map_inj_left.mpr fun m hm => (Mono.afterDerivative_eq_iff (hp.all m hm)).mpr (h3 m hm)
      rw [h4, List.map_id]

/-- C10: `Monomial.Copy` gives a monomial whose differentiation changes no earlier expression. -/
theorem heap_copy_protects {h h' : ExpHeap} {m : HMono R} {x e2 : HScalar R}
    (hc : (m.load h).Canon) {v : Var R} (hv : v.OK)
    (hr : (m.copy h).1.derivative v (m.copy h).2 = .ok (x, h')) (ha2 : e2.Valid h) :
    (m.copy h).1.load (m.copy h).2 = m.load h ∧ e2.load h' = e2.load h := by
  have hload : (m.copy h).1.load (m.copy h).2 = m.load h := by
    simp only [HMono.copy, HMono.load, List.getD_eq_getElem?_getD, List.getElem?_append_right le_rfl,
      Nat.sub_self]
    rfl
  refine ⟨hload, ?_⟩
  have h1 : (m.copy h).2.length = h.length + 1 := by simp [HMono.copy]
  have hold : ∀ a, a < h.length → (m.copy h).2.getD a [] = h.getD a [] := fun a ha =>
    getD_append_left ha
  have := heap_derivative_others (e := .mono (m.copy h).1) (e2 := e2) (h := (m.copy h).2) (by
      intro a h2
      simp only [HScalar.addrs, HMono.copy, List.mem_singleton] at h2
      omega) (by simp [HScalar.addrs])
    (by show Mono.Canon _; rw [hload]; exact hc) hv hr (fun a h2 => by have := ha2 a h2; omega)
    (fun a h2 => by
      have := ha2 a h2
      simp only [HScalar.addrs, HMono.copy, List.mem_singleton]
      omega)
  rw [this]
  exact HScalar.load_congr fun a h2 => hold a (ha2 a h2)

/-! ## Programs that differentiate by variables of low exponent -/

/-- What one call does when the variable occurs at most to the first power: nothing is written. -/
structure SafeCall (h : ExpHeap) (e : HScalar R) (v : Var R) (x : HScalar R) (h' : ExpHeap) :
    Prop where
  value : (e.load h).derivative v = .ok (x.load h')
  prefix_ : h <+: h'
  valid : x.Valid h'

theorem HScalar.load_prefix {h h' : ExpHeap} {e : HScalar R} (ha : e.Valid h) (hp : h <+: h') :
    e.load h' = e.load h := by
  obtain ⟨t, rfl⟩ := hp
  exact HScalar.load_congr fun a h1 => getD_append_left (ha a h1)

theorem HScalar.Valid.prefix {h h' : ExpHeap} {e : HScalar R} (ha : e.Valid h) (hp : h <+: h') :
    e.Valid h' := fun a h1 => (ha a h1).trans_le hp.length_le

theorem HMono.derivative_safe {h : ExpHeap} {m : HMono R} (ha : m.addr < h.length)
    (hm : (m.load h).Canon) {v : Var R} (hv : v.OK) (hl : (m.load h).degs v.id ≤ 1) :
    Go.Ok (m.derivative v h) (fun r => SafeCall h (.mono m) v r.1 r.2 ∧
      ((∃ c, r.1 = .k c) ∨ ∃ d, r.1 = .mono d)) := by
  obtain ⟨r, h1, h2⟩ := HMono.derivative_ok ha hm hv
  refine ⟨r, h1, ⟨h2.value, ?_, fun a h3 => (h2.addrs a h3).1⟩, h2.kind⟩
  have hall : ∀ a, a < h.length → r.2.getD a [] = h.getD a [] := by
    intro a h3
    by_cases h4 : a = m.addr
    · subst h4
      have h5 := h2.self
      rw [Mono.afterDerivative_small hm hl] at h5
      exact congrArg Mono.exps h5
    · exact h2.frame a h3 h4
  rw [List.prefix_iff_eq_take]
  apply List.ext_getElem?
  intro i
  by_cases hi : i < h.length
  · rw [List.getElem?_take, if_pos hi]
    have h3 := hall i hi
    have hi' : i < r.2.length := hi.trans_le h2.len
    rw [List.getD_eq_getElem?_getD, List.getD_eq_getElem?_getD, List.getElem?_eq_getElem hi,
      List.getElem?_eq_getElem hi', Option.getD_some, Option.getD_some] at h3
    rw [List.getElem?_eq_getElem hi, List.getElem?_eq_getElem hi', h3]
  · rw [List.getElem?_take, if_neg hi, List.getElem?_eq_none (by omega)]

theorem HPoly.derivative_safe {h : ExpHeap} {p : HPoly R} (ha : (HScalar.poly p).Valid h)
    (hp : (p.load h).Canon) {v : Var R} (hv : v.OK)
    (hl : (Scalar.poly (p.load h)).LinearIn v) :
    Go.Ok (p.derivative v h) (fun r => SafeCall h (.poly p) v r.1 r.2) := by
  have hck : (p.load h).check = .ok () := (good_of_univ (s := .poly (p.load h)) hp).check
  have hfold : Go.Ok (p.monos.foldlM (hDerivStep v) ([], h)) (fun st =>
      (p.monos.map (HMono.load h)).foldlM (derivStep v) [] = .ok (st.1.map (HMono.load st.2)) ∧
      h <+: st.2 ∧ ∀ d ∈ st.1, d.addr < st.2.length) := by
    apply Go.foldlM_ok' (hDerivStep v) (fun pre st =>
      (pre.map (HMono.load h)).foldlM (derivStep v) [] = .ok (st.1.map (HMono.load st.2)) ∧
      h <+: st.2 ∧ ∀ d ∈ st.1, d.addr < st.2.length)
    · exact ⟨rfl, List.prefix_rfl, by simp⟩
    · rintro pre m ⟨acc, h1⟩ ⟨post, hpost⟩ ⟨hval, hpre, haddr⟩
      simp only at hval hpre haddr ⊢
      have hmem : m ∈ p.monos := by rw [hpost]; simp
      have hma : m.addr < h.length := ha _ (List.mem_map_of_mem hmem)
      have hmload : m.load h1 = m.load h := by
        obtain ⟨t, rfl⟩ := hpre
        exact HMono.load_congr (getD_append_left hma)
      have hmc : (m.load h1).Canon := by
        rw [hmload]
        exact hp.all _ (List.mem_map_of_mem hmem)
      have hml : (m.load h1).degs v.id ≤ 1 := by
        rw [hmload]
        exact hl _ (List.mem_map_of_mem hmem)
      unfold hDerivStep
      simp only [List.map_append, List.map_cons, List.map_nil, List.foldlM_append, hval,
        Go.ok_bind, List.foldlM_cons, List.foldlM_nil]
      have hstep : derivStep v (acc.map (HMono.load h1)) (m.load h) =
          (do
            if m.vars.isEmpty then return acc.map (HMono.load h1)
            match ← (m.load h1).derivative v with
            | .mono d => return acc.map (HMono.load h1) ++ [d]
            | .k c =>
              if GoNum.feq c GoNum.zero then return acc.map (HMono.load h1)
              else return acc.map (HMono.load h1) ++ [kToMono c]
            | _ => throw .other : Go (List (Mono R))) := by
        rw [hmload]; rfl
      by_cases hc : m.vars.isEmpty = true
      · rw [if_pos hc] at hstep ⊢
        rw [hstep]
        exact Go.ok_pure ⟨rfl, hpre, haddr⟩
      · rw [if_neg hc] at hstep ⊢
        obtain ⟨⟨x, h2⟩, hr1, hr, hkind⟩ :=
          HMono.derivative_safe (hma.trans_le hpre.length_le) hmc hv hml
        simp only at hr hkind
        have hv2 : (m.load h1).derivative v = .ok (x.load h2) := hr.value
        rw [hr1, Go.ok_bind]
        rw [hv2, Go.ok_bind] at hstep
        have hlen := hr.prefix_.length_le
        have haccload : acc.map (HMono.load h2) = acc.map (HMono.load h1) :=
          List.map_inj_left.mpr fun d hd => by
            obtain ⟨t, rfl⟩ := hr.prefix_
            exact HMono.load_congr (getD_append_left (haddr d hd))
        rcases hkind with ⟨c, rfl⟩ | ⟨d, rfl⟩
        · simp only [HScalar.load] at hstep ⊢
          by_cases h0 : GoNum.feq c GoNum.zero = true
          · rw [if_pos h0] at hstep ⊢
            rw [hstep]
            exact Go.ok_pure ⟨by rw [haccload]; rfl, hpre.trans hr.prefix_,
              fun d hd => (haddr d hd).trans_le hlen⟩
          · rw [if_neg h0] at hstep ⊢
            rw [hstep]
            refine Go.ok_pure ⟨?_, (hpre.trans hr.prefix_).trans (List.prefix_append _ _), ?_⟩
            · have h3 : acc.map (HMono.load (h2 ++ [[]])) = acc.map (HMono.load h1) := by
                rw [← haccload]
                exact List.map_inj_left.mpr fun d hd =>
                  HMono.load_congr (getD_append_left ((haddr d hd).trans_le hlen))
              simp only [List.map_append, h3, List.map_cons, List.map_nil, HMono.load,
                List.getD_eq_getElem?_getD, List.getElem?_append_right le_rfl, Nat.sub_self]
              rfl
            · intro d hd
              simp only [List.length_append, List.length_singleton]
              rcases List.mem_append.mp hd with hd | hd
              · have := haddr d hd; omega
              · rw [List.mem_singleton] at hd
                subst hd
                simp
        · simp only [HScalar.load] at hstep ⊢
          rw [hstep]
          refine Go.ok_pure ⟨?_, hpre.trans hr.prefix_, ?_⟩
          · simp only [List.map_append, haccload, List.map_cons, List.map_nil]
            rfl
          · intro d' hd
            rcases List.mem_append.mp hd with hd | hd
            · exact (haddr d' hd).trans_le hlen
            · rw [List.mem_singleton] at hd
              subst hd
              exact hr.valid _ (by simp [HScalar.addrs])
  obtain ⟨⟨acc, h'⟩, h1, hval, hpre, haddr⟩ := hfold
  simp only at hval hpre haddr
  unfold HPoly.derivative
  rw [hck, hv.check, Go.ok_bind, Go.ok_bind, h1, Go.ok_bind]
  have hpd : (Scalar.poly (p.load h)).derivative v =
      (if (acc.map (HMono.load h')).isEmpty then .ok (.k GoNum.zero)
        else .ok (.poly ⟨acc.map (HMono.load h')⟩)) := by
    show (p.load h).derivative v = _
    unfold Poly.derivative
    rw [hck, hv.check, Go.ok_bind, Go.ok_bind]
    rw [show (p.load h).monos = p.monos.map (HMono.load h) from rfl, hval, Go.ok_bind]
    split <;> rfl
  by_cases he : acc.isEmpty = true
  · simp only [he, if_true]
    refine Go.ok_pure ⟨?_, hpre, fun a h => (by cases h)⟩
    show (Scalar.poly (p.load h)).derivative v = _
    rw [hpd, if_pos (by simpa using he)]
    rfl
  · simp only [he, if_false, Bool.false_eq_true]
    refine Go.ok_pure ⟨?_, hpre, ?_⟩
    · show (Scalar.poly (p.load h)).derivative v = _
      rw [hpd, if_neg (by simpa using he)]
      rfl
    · intro a h2
      obtain ⟨d, hd, rfl⟩ := List.mem_map.mp h2
      exact haddr d hd

/-- C10 for a variable of exponent at most one, whatever slices are shared: the returned value is the
derivative and no existing slice changes. -/
theorem heap_derivative_safe {h : ExpHeap} {e : HScalar R} (ha : e.Valid h) (hc : (e.load h).Canon)
    {v : Var R} (hv : v.OK) (hl : (e.load h).LinearIn v) :
    Go.Ok (e.derivative v h) (fun r => SafeCall h e v r.1 r.2) := by
  cases e with
  | k c => exact Go.ok_pure ⟨rfl, List.prefix_rfl, fun a h => (by cases h)⟩
  | var w =>
    have hw : w.OK := hc
    have hval : (Scalar.var w).derivative v =
        (if w.id = v.id then .ok (.k GoNum.one) else .ok (.k GoNum.zero)) := by
      simp only [Scalar.derivative, hw.check, hv.check, Go.ok_bind]
      rfl
    unfold HScalar.derivative
    simp only [hw.check, hv.check, Go.ok_bind]
    split
    · next hid =>
      rw [if_pos hid] at hval
      exact Go.ok_pure ⟨hval, List.prefix_rfl, fun a h => (by cases h)⟩
    · next hid =>
      rw [if_neg hid] at hval
      exact Go.ok_pure ⟨hval, List.prefix_rfl, fun a h => (by cases h)⟩
  | mono m =>
    exact (HMono.derivative_safe (ha _ (by simp [HScalar.addrs])) hc hv hl).mono fun r hr => hr.1
  | poly p => exact HPoly.derivative_safe ha hc hv hl

theorem Store.run_cons {s : Store R} {c : ℕ × Var R} {cs : List (ℕ × Var R)} :
    s.run (c :: cs) = s.call c >>= fun s' => s'.run cs := by
  unfold Store.run
  rw [List.foldlM_cons]

/-- C10 for programs: differentiating the expressions at hand by variables that occur in them at most
to the first power, in any order and number, with any sharing between them, changes none of them, and
every result is the derivative of the original expression.  Missing: higher exponents
(`heap_gradient_false`). -/
theorem heap_gradient_partial {s : Store R} {cs : List (ℕ × Var R)}
    (hs : ∀ e ∈ s.objs, e.Valid s.heap ∧ (e.load s.heap).Canon)
    (hcs : ∀ c ∈ cs, c.2.OK ∧ ∃ e, s.objs[c.1]? = some e ∧ (e.load s.heap).LinearIn c.2) :
    ∃ s' rs, s.run cs = .ok s' ∧ s'.objs = s.objs ++ rs ∧
      (∀ e ∈ s.objs, e.load s'.heap = e.load s.heap) ∧
      List.Forall₂ (fun c r => ∃ e, s.objs[c.1]? = some e ∧
        (e.load s.heap).derivative c.2 = .ok (r.load s'.heap)) cs rs := by
  have main : ∀ (cs : List (ℕ × Var R)) (s1 : Store R) (ex : List (HScalar R)),
      (∀ c ∈ cs, c.2.OK ∧ ∃ e, s.objs[c.1]? = some e ∧ (e.load s.heap).LinearIn c.2) →
      s1.objs = s.objs ++ ex → s.heap <+: s1.heap →
      ∃ s' rs, s1.run cs = .ok s' ∧ s'.objs = s1.objs ++ rs ∧ s1.heap <+: s'.heap ∧
        List.Forall₂ (fun c r => ∃ e, s.objs[c.1]? = some e ∧
          (e.load s.heap).derivative c.2 = .ok (r.load s'.heap)) cs rs := by
    intro cs
    induction cs with
    | nil => exact fun s1 ex _ h1 h2 => ⟨s1, [], rfl, by simp, List.prefix_rfl, List.Forall₂.nil⟩
    | cons c cs ih =>
      intro s1 ex hcs h1 h2
      obtain ⟨hv, e, he, hl⟩ := hcs c (by simp)
      have hm := List.mem_of_getElem? he
      obtain ⟨hva, hca⟩ := hs e hm
      have hload := HScalar.load_prefix hva h2
      obtain ⟨⟨x, h'⟩, hr1, hr⟩ := heap_derivative_safe (hva.prefix h2) (by rw [hload]; exact hca) hv
        (by rw [hload]; exact hl)
      simp only at hr
      have hcall : s1.call c = .ok ⟨s1.objs ++ [x], h'⟩ := by
        unfold Store.call
        have : s1.objs[c.1]? = some e := by
          rw [h1, List.getElem?_append_left (List.getElem?_eq_some_iff.mp he).1]
          exact he
        rw [this]
        simp only [hr1, Go.ok_bind, Go.pure_eq]
      obtain ⟨s', rs, h3, h4, h5, h6⟩ := ih ⟨s1.objs ++ [x], h'⟩ (ex ++ [x])
        (fun c' hc' => hcs c' (by simp [hc'])) (by simp [h1]) (h2.trans hr.prefix_)
      refine ⟨s', x :: rs, ?_, by simp [h4], hr.prefix_.trans h5, List.Forall₂.cons ⟨e, he, ?_⟩ h6⟩
      · rw [Store.run_cons, hcall, Go.ok_bind, h3]
      · rw [← hload, HScalar.load_prefix hr.valid h5]
        exact hr.value
  obtain ⟨s', rs, h1, h2, h3, h4⟩ := main cs s [] hcs (by simp) List.prefix_rfl
  exact ⟨s', rs, h1, h2, fun e he => HScalar.load_prefix (hs e he).1 h3, h4⟩

/-! ## Vectors: the heap model returns what the value model says -/

theorem HPoly.load_congr {h h' : ExpHeap} {p : HPoly R}
    (he : ∀ a ∈ (HScalar.poly p).addrs, h'.getD a [] = h.getD a []) : p.load h' = p.load h := by
  have := HScalar.load_congr (e := .poly p) he
  simpa [HScalar.load] using this

def hPolyVecStepOut (acc : List (HPoly R)) (r : HScalar R × ExpHeap) :
    Go (List (HPoly R) × ExpHeap) :=
  match r.1 with
  | .poly q => .ok (acc ++ [q], r.2)
  | _ => .error .typeAssert

def derivPolyOut (s : Scalar R) : Go (Poly R) :=
  match s with
  | .poly q => .ok q
  | _ => .error .typeAssert

theorem hPolyVec_fold {v : Var R} (hv : v.OK) (l : List (HPoly R)) :
    ∀ (acc : List (HPoly R)) (h : ExpHeap),
    (∀ p ∈ l, (HScalar.poly p).Valid h ∧ (p.load h).Canon) →
    (l.flatMap fun p => (HScalar.poly p).addrs).Nodup →
    (∀ q ∈ acc, ∀ a ∈ (HScalar.poly q).addrs, a < h.length ∧ ∀ p ∈ l, a ∉ (HScalar.poly p).addrs) →
    (l.foldlM (hPolyVecStep v) (acc, h) >>= fun st => pure (st.1.map (HPoly.load st.2))) =
      ((l.map (HPoly.load h)).mapM (·.derivPoly v) >>= fun r => pure (acc.map (HPoly.load h) ++ r)) := by
  induction l with
  | nil => intro acc h _ _ _; simp [Go.pure_eq, Go.ok_bind]
  | cons p l ih =>
    intro acc h hl hnd hacc
    rw [List.flatMap_cons, List.nodup_append] at hnd
    obtain ⟨hnd1, hnd2, hdis⟩ := hnd
    obtain ⟨hpv, hpc⟩ := hl p (by simp)
    obtain ⟨⟨x, h1⟩, hr1, hr⟩ := HPoly.derivative_ok hpv hnd1 hpc hv
    simp only at hr
    have hval : (p.load h).derivative v = .ok (x.load h1) := hr.value
    have hoth : ∀ q ∈ l, ∀ a ∈ (HScalar.poly q).addrs, h1.getD a [] = h.getD a [] := by
      intro q hq a ha
      refine hr.frame a ((hl q (by simp [hq])).1 a ha) fun h2 => ?_
      exact hdis a h2 a (List.mem_flatMap.mpr ⟨q, hq, ha⟩) rfl
    have hload : l.map (HPoly.load h1) = l.map (HPoly.load h) :=
      List.map_inj_left.mpr fun q hq => HPoly.load_congr (hoth q hq)
    have haccload : acc.map (HPoly.load h1) = acc.map (HPoly.load h) :=
      List.map_inj_left.mpr fun q hq => HPoly.load_congr fun a ha =>
        hr.frame a (hacc q hq a ha).1 ((hacc q hq a ha).2 p (by simp))
    rw [List.foldlM_cons, List.map_cons, List.mapM_cons]
    have hstep : hPolyVecStep v (acc, h) p = hPolyVecStepOut acc (x, h1) := by
      unfold hPolyVecStep
      rw [hr1, Go.ok_bind]
      cases x <;> rfl
    have hder : (p.load h).derivPoly v = derivPolyOut (x.load h1) := by
      unfold Poly.derivPoly
      rw [hval, Go.ok_bind]
      cases x <;> rfl
    rw [hstep, hder]
    cases x with
    | poly q =>
      simp only [HScalar.load, hPolyVecStepOut, derivPolyOut, Go.pure_eq, Go.ok_bind]
      have := ih (acc ++ [q]) h1 (fun q' hq' => by
          refine ⟨fun a ha => ((hl q' (by simp [hq'])).1 a ha).trans_le hr.len, ?_⟩
          rw [HPoly.load_congr (hoth q' hq')]
          exact (hl q' (by simp [hq'])).2) hnd2 (by
          intro q' hq' a ha
          rcases List.mem_append.mp hq' with hq' | hq'
          · exact ⟨(hacc q' hq' a ha).1.trans_le hr.len,
              fun p' hp' => (hacc q' hq' a ha).2 p' (by simp [hp'])⟩
          · rw [List.mem_singleton] at hq'
            subst hq'
            obtain ⟨h3, h4⟩ := hr.addrs a ha
            refine ⟨h3, fun p' hp' h5 => ?_⟩
            rcases h4 with h4 | h4
            · exact hdis a h4 a (List.mem_flatMap.mpr ⟨p', hp', h5⟩) rfl
            · have := (hl p' (by simp [hp'])).1 a h5
              omega)
      rw [hload, List.map_append, haccload] at this
      simp only [Go.pure_eq] at this
      rw [this]
      cases (l.map (HPoly.load h)).mapM (fun p => p.derivPoly v) with
      | error e => rfl
      | ok r => simp [Go.ok_bind]
    | _ => rfl

/-- C10 and C11: `PolynomialVector.DerivativeWrt` returns its own receiver, whose entries are then the
derivatives: the caller's vector has been replaced. -/
theorem heap_polyVec {h : Heap R} {a : ℕ} {l : List (HPoly R)} (hl : h.pvs[a]? = some l)
    (hc : ∀ p ∈ l, (HScalar.poly p).Valid h.exps ∧ (p.load h.exps).Canon)
    (hnd : (l.flatMap fun p => (HScalar.poly p).addrs).Nodup) {v : Var R} (hv : v.OK) :
    (hPolyVecDerivative a v h >>= fun r =>
      pure (Vec.p ((r.2.pvs.getD r.1 []).map (HPoly.load r.2.exps)))) =
        Vec.derivative (.p (l.map (HPoly.load h.exps))) v ∧
    ∀ r, hPolyVecDerivative a v h = .ok r → r.1 = a := by
  have hfold := hPolyVec_fold hv l [] h.exps hc hnd (by simp)
  have hla : h.pvs.getD a [] = l := by rw [List.getD_eq_getElem?_getD, hl, Option.getD_some]
  have hlt : a < h.pvs.length := (List.getElem?_eq_some_iff.mp hl).1
  constructor
  · unfold hPolyVecDerivative
    rw [hla]
    unfold Vec.derivative
    simp only [List.map_nil, List.nil_append] at hfold
    cases hx : l.foldlM (hPolyVecStep v) ([], h.exps) with
    | error e =>
      rw [hx] at hfold
      cases hy : (l.map (HPoly.load h.exps)).mapM (fun p => p.derivPoly v) with
      | error e' =>
        rw [hy] at hfold
        show _ = (_ >>= _)
        rw [hy]
        exact congrArg _ (Except.error.inj hfold)
      | ok r =>
        rw [hy] at hfold
        cases hfold
    | ok st =>
      rw [hx] at hfold
      cases hy : (l.map (HPoly.load h.exps)).mapM (fun p => p.derivPoly v) with
      | error e' =>
        rw [hy] at hfold
        cases hfold
      | ok r =>
        rw [hy] at hfold
        simp only [Go.pure_eq, Go.ok_bind, Except.ok.injEq] at hfold ⊢
        rw [List.getD_eq_getElem?_getD, List.getElem?_set_self hlt, Option.getD_some, hfold]
        show _ = (_ >>= _)
        rw [hy]
        rfl
  · intro r hr
    unfold hPolyVecDerivative at hr
    obtain ⟨st, -, h2⟩ := Go.bind_eq_ok.mp hr
    rw [Go.pure_eq, Except.ok.injEq] at h2
    rw [← h2]

theorem hMonoVec_fold {v : Var R} (hv : v.OK) (l : List (HMono R)) :
    ∀ (acc : List (Bool × HScalar R)) (h : ExpHeap),
    (∀ m ∈ l, m.addr < h.length ∧ (m.load h).Canon) →
    (l.map (·.addr)).Nodup →
    (∀ q ∈ acc, ∀ a ∈ q.2.addrs, a < h.length ∧ ∀ m ∈ l, a ≠ m.addr) →
    (∀ q ∈ acc, (∃ c, q.2 = .k c) ∨ ∃ d, q.2 = .mono d) →
    Go.Ok (l.foldlM (hMonoVecStep v) (acc, h)) (fun st =>
      ((l.map (HMono.load h)).mapM (fun (m : Mono R) => do
        let d1 ← m.derivative v
        let d2 ← (m.afterDerivative v).derivative v
        return (d1.isMono, d2)) >>= fun r => pure (acc.map (fun d => (d.1, d.2.load h)) ++ r)) =
        .ok (st.1.map (fun d => (d.1, d.2.load st.2))) ∧
      ∀ q ∈ st.1, q.2.Valid st.2 ∧ ((∃ c, q.2 = .k c) ∨ ∃ d, q.2 = .mono d)) := by
  induction l with
  | nil =>
    intro acc h _ _ hacc hk
    refine ⟨(acc, h), rfl, ?_, fun q hq => ⟨fun a ha => (hacc q hq a ha).1, hk q hq⟩⟩
    simp [Go.pure_eq, Go.ok_bind]
  | cons m l ih =>
    intro acc h hl hnd hacc hk
    rw [List.map_cons, List.nodup_cons] at hnd
    obtain ⟨hma, hmc⟩ := hl m (by simp)
    obtain ⟨⟨x, h1⟩, hr1, hr⟩ := HMono.derivative_ok hma hmc hv
    simp only at hr
    have hmc1 : (m.load h1).Canon := by
      rw [hr.self]
      exact (Mono.afterDerivative_canon hmc).1
    obtain ⟨⟨y, h2⟩, hs1, hs⟩ := HMono.derivative_ok (hma.trans_le hr.len) hmc1 hv
    simp only at hs
    have hlen : h.length ≤ h2.length := hr.len.trans hs.len
    have hframe : ∀ a, a < h.length → a ≠ m.addr → h2.getD a [] = h.getD a [] := fun a h3 h4 => by
      rw [hs.frame a (h3.trans_le hr.len) h4, hr.frame a h3 h4]
    have hne : ∀ q ∈ l, q.addr ≠ m.addr := fun q hq h3 =>
      hnd.1 (h3 ▸ List.mem_map_of_mem (f := fun m : HMono R => m.addr) hq)
    have hoth : ∀ q ∈ l, q.load h2 = q.load h := fun q hq =>
      HMono.load_congr (hframe _ (hl q (by simp [hq])).1 (hne q hq))
    have haccload : acc.map (fun d => (d.1, d.2.load h2)) = acc.map (fun d => (d.1, d.2.load h)) :=
      List.map_inj_left.mpr fun q hq => by
        rw [HScalar.load_congr fun a ha =>
          hframe a (hacc q hq a ha).1 ((hacc q hq a ha).2 m (by simp))]
    have hstep : hMonoVecStep v (acc, h) m = .ok (acc ++ [((x.load h1).isMono, y)], h2) := by
      unfold hMonoVecStep
      simp only [hr1, hs1, Go.ok_bind, Go.pure_eq]
      cases x <;> rfl
    obtain ⟨st, h3, h4, h5⟩ := ih (acc ++ [((x.load h1).isMono, y)]) h2 (fun q hq => by
        refine ⟨(hl q (by simp [hq])).1.trans_le hlen, ?_⟩
        rw [hoth q hq]
        exact (hl q (by simp [hq])).2) hnd.2 (by
        intro q hq a ha
        rcases List.mem_append.mp hq with hq | hq
        · exact ⟨(hacc q hq a ha).1.trans_le hlen, fun p hp => (hacc q hq a ha).2 p (by simp [hp])⟩
        · rw [List.mem_singleton] at hq
          subst hq
          obtain ⟨h6, h7⟩ := hs.addrs a ha
          refine ⟨h6, fun p hp h8 => ?_⟩
          rcases h7 with h7 | h7
          · exact hne p hp (h8 ▸ h7)
          · have := (hl p (by simp [hp])).1
            have := hr.len
            omega) (by
        intro q hq
        rcases List.mem_append.mp hq with hq | hq
        · exact hk q hq
        · rw [List.mem_singleton] at hq
          subst hq
          exact hs.kind)
    refine ⟨st, ?_, ?_, h5⟩
    · rw [List.foldlM_cons, hstep, Go.ok_bind, h3]
    · rw [← h4, List.map_cons, List.mapM_cons,
        show l.map (HMono.load h2) = l.map (HMono.load h) from List.map_inj_left.mpr hoth,
        List.map_append, haccload]
      have hv1 := hr.value
      have hv2 := hs.value
      rw [hr.self] at hv2
      simp only [hv1, hv2, Go.ok_bind, Go.pure_eq]
      generalize (List.mapM _ (l.map (HMono.load h)) : Go (List (Bool × Scalar R))) = z
      cases z with
      | error e => rfl
      | ok r => simp [Go.ok_bind]

theorem hMonoEntry_fold {f : Bool × Scalar R → Go (Mono R)} (hf1 : ∀ b x, f (b, .mono x) = .ok x)
    (hf2 : ∀ b c, f (b, .k c) = .ok (kToMono c)) (ds : List (Bool × HScalar R)) :
    ∀ (acc : List (HMono R)) (h : ExpHeap),
    (∀ q ∈ ds, q.2.Valid h ∧ ((∃ c, q.2 = .k c) ∨ ∃ d, q.2 = .mono d)) →
    (∀ m ∈ acc, m.addr < h.length) →
    Go.Ok (ds.foldlM hMonoEntry (acc, h)) (fun st =>
      ((ds.map (fun d => (d.1, d.2.load h))).mapM f >>= fun r =>
        pure (acc.map (HMono.load h) ++ r)) = .ok (st.1.map (HMono.load st.2))) := by
  induction ds with
  | nil =>
    intro acc h _ _
    refine ⟨(acc, h), rfl, ?_⟩
    simp [Go.pure_eq, Go.ok_bind]
  | cons d ds ih =>
    intro acc h hds hacc
    obtain ⟨hdv, hk⟩ := hds d (by simp)
    obtain ⟨b, x⟩ := d
    rw [List.foldlM_cons, List.map_cons, List.mapM_cons]
    rcases hk with ⟨c, rfl⟩ | ⟨m, rfl⟩
    · have hle : ∀ a, a < h.length → a < (h ++ [[]]).length := fun a ha => by
        simp only [List.length_append, List.length_singleton]; omega
      obtain ⟨st, h1, h2⟩ := ih (acc ++ [⟨c, h.length, []⟩]) (h ++ [[]])
        (fun q hq => ⟨fun a ha => hle a ((hds q (by simp [hq])).1 a ha), (hds q (by simp [hq])).2⟩)
        (by
          intro m hm
          rcases List.mem_append.mp hm with hm | hm
          · exact hle _ (hacc m hm)
          · rw [List.mem_singleton] at hm
            subst hm
            simp)
      refine ⟨st, ?_, ?_⟩
      · simp only [hMonoEntry, Go.pure_eq, Go.ok_bind]
        exact h1
      · beta_reduce
        rw [← h2, show ds.map (fun d => (d.1, d.2.load (h ++ [[]]))) =
            ds.map (fun d => (d.1, d.2.load h)) from List.map_inj_left.mpr fun q hq => by
              rw [HScalar.load_congr fun a ha => getD_append_left ((hds q (by simp [hq])).1 a ha)],
          List.map_append, show acc.map (HMono.load (h ++ [[]])) = acc.map (HMono.load h) from
            List.map_inj_left.mpr fun m hm => HMono.load_congr (getD_append_left (hacc m hm))]
        simp only [HScalar.load, hf2, Go.ok_bind, Go.pure_eq, List.map_cons, List.map_nil, HMono.load,
          List.getD_eq_getElem?_getD, List.getElem?_append_right le_rfl, Nat.sub_self]
        generalize List.mapM f _ = z
        cases z with
        | error e => rfl
        | ok r =>
          simp only [Go.ok_bind, List.append_assoc]
          rfl
    · obtain ⟨st, h1, h2⟩ := ih (acc ++ [m]) h (fun q hq => hds q (by simp [hq])) (by
          intro m' hm
          rcases List.mem_append.mp hm with hm | hm
          · exact hacc _ hm
          · rw [List.mem_singleton] at hm
            subst hm
            exact hdv _ (by simp [HScalar.addrs]))
      refine ⟨st, ?_, ?_⟩
      · simp only [hMonoEntry, Go.pure_eq, Go.ok_bind]
        exact h1
      · beta_reduce
        rw [← h2]
        simp only [HScalar.load, hf1, Go.ok_bind, Go.pure_eq, List.map_append, List.map_cons,
          List.map_nil]
        generalize List.mapM f _ = z
        cases z with
        | error e => rfl
        | ok r => simp [Go.ok_bind]

theorem hConst_fold {f : Bool × HScalar R → Go R} {g : Bool × Scalar R → Go R} {h : ExpHeap}
    (ds : List (Bool × HScalar R)) (hfg : ∀ q ∈ ds, f q = g (q.1, q.2.load h)) :
    ds.mapM f = (ds.map (fun d => (d.1, d.2.load h))).mapM g := by
  induction ds with
  | nil => rfl
  | cons d ds ih =>
    rw [List.mapM_cons, List.map_cons, List.mapM_cons, hfg d (by simp),
      ih fun q hq => hfg q (by simp [hq])]

/-- C10 and C11: for entries that share no exponent slices the heap model of
`MonomialVector.DerivativeWrt` returns what the value model says. -/
theorem heap_monoVec {h : ExpHeap} {l : List (HMono R)}
    (hl : ∀ m ∈ l, m.addr < h.length ∧ (m.load h).Canon) (hnd : (l.map (·.addr)).Nodup)
    {v : Var R} (hv : v.OK) :
    (hMonoVecDerivative l v h >>= fun r => pure (r.1.load r.2)) =
      Vec.derivative (.m (l.map (HMono.load h))) v := by
  unfold hMonoVecDerivative Vec.derivative
  simp only
  cases Vec.check (.m (l.map (HMono.load h))) with
  | error e => rfl
  | ok u =>
    obtain ⟨st, h1, h2, h3⟩ := hMonoVec_fold hv l [] h hl hnd (by simp) (by simp)
    simp only [Go.ok_bind, h1]
    obtain ⟨r, h4, h5⟩ := Go.bind_eq_ok.mp h2
    simp only [List.map_nil, List.nil_append, Go.pure_eq, Except.ok.injEq] at h5
    subst h5
    simp only [h4, Go.ok_bind]
    have hany : (st.1.map (fun d => (d.1, d.2.load st.2))).any (·.1) = st.1.any (·.1) := by
      rw [List.any_map]; rfl
    rw [hany]
    by_cases ha : st.1.any (·.1) = true
    · rw [if_pos ha, if_pos ha]
      have key : ∀ F : Bool × Scalar R → Go (Mono R), (∀ b x, F (b, .mono x) = .ok x) →
          (∀ b c, F (b, .k c) = .ok (kToMono c)) →
          (st.1.foldlM hMonoEntry ([], st.2) >>= fun s => Except.ok ((HVec.m s.1).load s.2)) =
            ((st.1.map (fun d => (d.1, d.2.load st.2))).mapM F >>= fun l => (Except.ok (Vec.m l) : Go _)) := by
        intro F hF1 hF2
        obtain ⟨st2, h6, h7⟩ := hMonoEntry_fold hF1 hF2 st.1 [] st.2 h3 (by simp)
        obtain ⟨r2, h8, h9⟩ := Go.bind_eq_ok.mp h7
        simp only [List.map_nil, List.nil_append, Go.pure_eq, Except.ok.injEq] at h9
        subst h9
        rw [h6, h8]
        rfl
      refine Eq.trans ?_ (key _ (fun _ _ => rfl) (fun _ _ => rfl))
      cases st.1.foldlM hMonoEntry ([], st.2) <;> rfl
    · rw [if_neg ha, if_neg ha]
      have key : ∀ (F : Bool × Scalar R → Go R) (G : Bool × HScalar R → Go R),
          (∀ b c, F (b, .k c) = .ok c) → (∀ b m, F (b, .mono m) = .error .typeAssert) →
          (∀ b c, G (b, .k c) = .ok c) → (∀ b m, G (b, .mono m) = .error .typeAssert) →
          ((st.1.mapM G >>= fun l => (Except.ok (HVec.k l, st.2) : Go _)) >>= fun r =>
            (Except.ok (r.1.load r.2) : Go _)) =
            ((st.1.map (fun d => (d.1, d.2.load st.2))).mapM F >>= fun l =>
              (Except.ok (Vec.k l) : Go _)) := by
        intro F G hF1 hF2 hG1 hG2
        rw [hConst_fold st.1 (g := F) (h := st.2)]
        · cases (st.1.map (fun d => (d.1, d.2.load st.2))).mapM F <;> rfl
        · rintro ⟨b, x⟩ hq
          rcases (h3 _ hq).2 with ⟨c, hc⟩ | ⟨m, hm⟩
          · simp only at hc
            subst hc
            rw [hG1]
            exact (hF1 _ _).symm
          · simp only at hm
            subst hm
            rw [hG2]
            exact (hF2 _ _).symm
      exact key _ _ (fun _ _ => rfl) (fun _ _ => rfl) (fun _ _ => rfl) (fun _ _ => rfl)

end Struct

section Value
variable [Field R] [LinearOrder R]

/-- C10 with meanings: under the conditions of `heap_gradient_partial`, the results denote the partial
derivatives of what the expressions denoted at the start. -/
theorem heap_gradient_denotes_partial {s : Store R} {cs : List (ℕ × Var R)}
    (hs : ∀ e ∈ s.objs, e.Valid s.heap ∧ (e.load s.heap).Canon)
    (hcs : ∀ c ∈ cs, c.2.OK ∧ ∃ e, s.objs[c.1]? = some e ∧ (e.load s.heap).LinearIn c.2) :
    ∃ s' rs, s.run cs = .ok s' ∧ s'.objs = s.objs ++ rs ∧
      (∀ e ∈ s.objs, (e.load s'.heap).den = (e.load s.heap).den) ∧
      List.Forall₂ (fun c r => ∃ e, s.objs[c.1]? = some e ∧
        (r.load s'.heap).den = pderiv c.2.id (e.load s.heap).den) cs rs := by
  obtain ⟨s', rs, h1, h2, h3, h4⟩ := heap_gradient_partial hs hcs
  refine ⟨s', rs, h1, h2, fun e he => by rw [h3 e he], ?_⟩
  have h5 : ∀ c ∈ cs, c.2.OK := fun c hc => (hcs c hc).1
  clear hcs h1 h2
  induction h4 with
  | nil => exact List.Forall₂.nil
  | cons hcr _ ih =>
    refine List.Forall₂.cons ?_ (ih fun c hc => h5 c (by simp [hc]))
    obtain ⟨e, he, hd⟩ := hcr
    refine ⟨e, he, ?_⟩
    obtain ⟨r, h6, -, h7⟩ := derivative_denotes_pderiv (hs e (List.mem_of_getElem? he)).2 (h5 _ List.mem_cons_self)
    rw [hd, Except.ok.injEq] at h6
    rw [h6, h7]

end Value

/-! ## Counterexamples -/

/-- The caller's expressions: `x^2*y` as the only one. -/
def wStore : Store ℚ := ⟨[.mono ⟨1, 0, [wx, wy]⟩], [[2, 1]]⟩

/-- The gradient of `x^2*y`: after `DerivativeWrt(x)` the operand has become `x*y`, and
`DerivativeWrt(y)` returns `x` instead of `x^2`. -/
theorem heap_gradient_run : ∃ s', wStore.run [(0, wx), (0, wy)] = .ok s' ∧
    s'.objs.map (HScalar.load s'.heap) =
      [.mono (wm2 1 0 1 1 1), .mono (wm2 2 0 1 1 1), .mono (wm1 1 0 1)] :=
  ⟨⟨[.mono ⟨1, 0, [wx, wy]⟩, .mono ⟨2, 0, [wx, wy]⟩, .mono ⟨1, 1, [wx]⟩], [[1, 1], [1]]⟩,
    by decide +kernel, by decide +kernel⟩

/-- C10 is false: calling `DerivativeWrt` on a valid expression changes it, and a later call on the
same expression returns a wrong derivative. -/
theorem heap_gradient_false : ¬ ∀ (s : Store ℚ) (cs : List (ℕ × Var ℚ)),
    (∀ e ∈ s.objs, e.Valid s.heap ∧ (e.load s.heap).Canon ∧ e.addrs.Nodup) →
    (∀ c ∈ cs, c.2.OK ∧ c.1 < s.objs.length) →
    ∃ s' rs, s.run cs = .ok s' ∧ s'.objs = s.objs ++ rs ∧
      List.Forall₂ (fun c r => ∃ e, s.objs[c.1]? = some e ∧
        (r.load s'.heap).den = pderiv c.2.id (e.load s.heap).den) cs rs := by
  intro h
  obtain ⟨s', rs, h1, h2, h3⟩ := h wStore [(0, wx), (0, wy)] (by
      simp only [wStore, List.mem_singleton, forall_eq]
      refine ⟨by simp [HScalar.Valid, HScalar.addrs], ?_, by decide⟩
      exact wA_canon) (by
      simp only [List.mem_cons, List.not_mem_nil, or_false, forall_eq_or_imp, forall_eq]
      exact ⟨⟨wv_ok 0, by decide⟩, wv_ok 1, by decide⟩)
  obtain ⟨s2, h4, h5⟩ := heap_gradient_run
  rw [h4, Except.ok.injEq] at h1
  subst h1
  rw [h2] at h5
  match rs, h3 with
  | [r1, r2], .cons _ (.cons ⟨e, he, hd⟩ _) =>
    simp only [wStore, List.getElem?_cons_zero, Option.some.injEq] at he
    subst he
    simp only [wStore, List.cons_append, List.nil_append, List.map_cons, List.map_nil, List.cons.injEq,
      and_true] at h5
    have h6 : (HScalar.load wStore.heap (.mono ⟨1, 0, [wx, wy]⟩)) = wA := rfl
    rw [h5.2.2, h6] at hd
    obtain ⟨r, h7, -, h8⟩ := derivative_denotes_pderiv wA_canon (wv_ok 1)
    have h9 : wA.derivative (wv 1) = .ok (.mono (wm1 1 0 2)) := by decide +kernel
    rw [h9, Except.ok.injEq] at h7
    subst h7
    have h10 := congrArg (eval (fun _ => (2 : ℚ))) (hd.trans h8.symm)
    simp only [Scalar.den, wm1_den, map_mul, map_pow, eval_C, eval_X] at h10
    norm_num [Int.toNat] at h10

/-- `Polynomial.Copy` does not protect the original: differentiating the copy of `x^2 + y` turns the
original into `x + y`. -/
theorem heap_polyCopy_false : ¬ ∀ (h : ExpHeap) (p : HPoly ℚ) (v : Var ℚ) (r : HScalar ℚ × ExpHeap),
    (HScalar.poly p).Valid h → (p.load h).Canon → v.OK → p.copy.derivative v h = .ok r →
      p.load r.2 = p.load h := by
  intro hall
  have := hall [[2], [1]] ⟨[⟨1, 0, [wx]⟩, ⟨1, 1, [wy]⟩]⟩ wx
    (.poly ⟨[⟨2, 0, [wx]⟩]⟩, [[1], [1]])
    (by simp [HScalar.Valid, HScalar.addrs])
    (Scalar.okDeg_spec (n := 2) (s := .poly ⟨[wm1 1 0 2, wm1 1 1 1]⟩) (by decide +kernel)).1
    (wv_ok 0) (by decide +kernel)
  revert this
  decide +kernel

/-- The receiver of `PolynomialVector.DerivativeWrt` becomes its derivative: `[x^2 + y]` differentiated
by `x` is `[2*x]` afterwards. -/
theorem heap_polyVec_receiver :
    ∃ h', hPolyVecDerivative 0 wx
      (⟨[[2], [1]], [[⟨[⟨1, 0, [wx]⟩, ⟨1, 1, [wy]⟩]⟩]]⟩ : Heap ℚ) = .ok (0, h') ∧
      (h'.pvs.getD 0 []).map (HPoly.load h'.exps) = [⟨[wm1 2 0 1]⟩] :=
  ⟨⟨[[1], [1]], [[⟨[⟨2, 0, [wx]⟩]⟩]]⟩, by decide +kernel, by decide +kernel⟩

/-! ## The hypotheses can be met -/

/-- `x*y + x` and `x*y`, sharing the slice of `x*y`. -/
def wStore2 : Store ℚ :=
  ⟨[.poly ⟨[⟨1, 0, [wx, wy]⟩, ⟨1, 1, [wx]⟩]⟩, .mono ⟨3, 0, [wx, wy]⟩], [[1, 1], [1]]⟩

example : ∃ s' rs, wStore2.run [(0, wx), (1, wy), (0, wy)] = .ok s' ∧ s'.objs = wStore2.objs ++ rs ∧
    (∀ e ∈ wStore2.objs, (e.load s'.heap).den = (e.load wStore2.heap).den) ∧
    List.Forall₂ (fun c r => ∃ e, wStore2.objs[c.1]? = some e ∧
      (r.load s'.heap).den = pderiv c.2.id (e.load wStore2.heap).den)
      [(0, wx), (1, wy), (0, wy)] rs := by
  have hd : (wm2 (1 : ℚ) 0 1 1 1).degs = Finsupp.single 0 1 + Finsupp.single 1 1 := wm2_degs 1 0 1 1 1
  have hd3 : (wm2 (3 : ℚ) 0 1 1 1).degs = Finsupp.single 0 1 + Finsupp.single 1 1 := wm2_degs 3 0 1 1 1
  have hd1 : (wm1 (1 : ℚ) 0 1).degs = Finsupp.single 0 1 := wm1_degs 1 0 1
  have hp : ∀ i, Scalar.LinearIn (wv i) (HScalar.load wStore2.heap
      (.poly ⟨[⟨1, 0, [wx, wy]⟩, ⟨1, 1, [wx]⟩]⟩)) := by
    intro i m hm
    simp only [wStore2, HPoly.load, List.map_cons, List.map_nil, List.mem_cons, List.not_mem_nil,
      or_false] at hm
    rcases hm with rfl | rfl
    · show (wm2 (1 : ℚ) 0 1 1 1).degs (wv i).id ≤ 1
      rw [hd]
      simp only [wv, Finsupp.add_apply, Finsupp.single_apply]
      split <;> split <;> omega
    · show (wm1 (1 : ℚ) 0 1).degs (wv i).id ≤ 1
      rw [hd1]
      simp only [wv, Finsupp.single_apply]
      split <;> omega
  refine heap_gradient_denotes_partial ?_ ?_
  · simp only [wStore2, List.mem_cons, List.not_mem_nil, or_false, forall_eq_or_imp, forall_eq]
    refine ⟨⟨by simp [HScalar.Valid, HScalar.addrs], ?_⟩, by simp [HScalar.Valid, HScalar.addrs], ?_⟩
    · exact (Scalar.okDeg_spec (n := 2) (s := .poly ⟨[wm2 1 0 1 1 1, wm1 1 0 1]⟩) (by decide +kernel)).1
    · exact wm2_canon 3 (by decide) (by decide) (by decide)
  · simp only [List.mem_cons, List.not_mem_nil, or_false, forall_eq_or_imp, forall_eq]
    refine ⟨⟨wv_ok 0, _, rfl, hp 0⟩, ⟨wv_ok 1, _, rfl, ?_⟩, wv_ok 1, _, rfl, hp 1⟩
    show (wm2 (3 : ℚ) 0 1 1 1).degs (wv 1).id ≤ 1
    rw [hd3]
    simp [wv, Finsupp.single_apply]

example : Go.Ok ((HScalar.mono (⟨1, 0, [wx, wy]⟩ : HMono ℚ)).derivative wx [[2, 1], [3]])
    (fun r => ScalarCall [[2, 1], [3]] (.mono ⟨1, 0, [wx, wy]⟩) wx r.1 r.2) :=
  heap_derivative (h := [[2, 1], [3]]) (e := .mono (⟨1, 0, [wx, wy]⟩ : HMono ℚ))
    (by simp [HScalar.Valid, HScalar.addrs]) (by decide) wA_canon (wv_ok 0)

/-- `z^3` lives in another slice. -/
example : (HScalar.mono (⟨1, 1, [wz]⟩ : HMono ℚ)).load [[1, 1], [3]] = .mono (wm1 1 2 3) :=
  (heap_derivative_others (e := .mono (⟨1, 0, [wx, wy]⟩ : HMono ℚ)) (x := .mono ⟨2, 0, [wx, wy]⟩)
    (h := [[2, 1], [3]])
    (by simp [HScalar.Valid, HScalar.addrs]) (by decide) wA_canon (wv_ok 0) (by decide +kernel)
    (by simp [HScalar.Valid, HScalar.addrs]) (by decide)).trans rfl

example : (HScalar.mono (⟨1, 0, [wx, wy]⟩ : HMono ℚ)).load [[2, 1], [2]] = wA :=
  ((heap_derivative_unchanged_iff (e := .mono (⟨1, 0, [wx, wy]⟩ : HMono ℚ)) (x := .mono ⟨1, 1, [wx]⟩)
    (h := [[2, 1]]) (by simp [HScalar.Valid, HScalar.addrs]) (by decide) wA_canon (wv_ok 1)
    (by decide +kernel)).mpr (by
      show (wm2 (1 : ℚ) 0 1 2 1).degs 1 ≤ 1
      rw [wm2_degs]
      simp)).trans rfl

example : (HScalar.mono (⟨1, 0, [wx, wy]⟩ : HMono ℚ)).load [[2, 1], [1, 1]] = wA :=
  (heap_copy_protects (m := (⟨1, 0, [wx, wy]⟩ : HMono ℚ)) (e2 := .mono ⟨1, 0, [wx, wy]⟩)
    (h := [[2, 1]]) (x := .mono ⟨2, 1, [wx, wy]⟩) wA_canon (wv_ok 0) (by decide +kernel)
    (by simp [HScalar.Valid, HScalar.addrs])).2.trans rfl

example : (hMonoVecDerivative [⟨1, 0, [wx]⟩, ⟨1, 1, [wx]⟩] wx [[1], [2]] >>= fun r =>
    pure (r.1.load r.2)) = Vec.derivative (.m [wm1 1 0 1, wm1 1 0 2]) wx :=
  heap_monoVec (by
    simp only [List.mem_cons, List.not_mem_nil, or_false, forall_eq_or_imp, forall_eq]
    exact ⟨⟨by decide, wm1_canon 1 0 (by decide)⟩, by decide, wm1_canon 1 0 (by decide)⟩)
    (by decide) (wv_ok 0)

example : ∀ r, hPolyVecDerivative 0 wx
    (⟨[[2], [1]], [[⟨[⟨1, 0, [wx]⟩, ⟨1, 1, [wy]⟩]⟩]]⟩ : Heap ℚ) = .ok r → r.1 = 0 :=
  (heap_polyVec rfl (by
    simp only [List.mem_cons, List.not_mem_nil, or_false, forall_eq]
    exact ⟨by simp [HScalar.Valid, HScalar.addrs],
      (Scalar.okDeg_spec (n := 2) (s := .poly ⟨[wm1 1 0 2, wm1 1 1 1]⟩) (by decide +kernel)).1⟩)
    (by decide) (wv_ok 0)).2

end Verif
