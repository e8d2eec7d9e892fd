import Verif.Spec
import Verif.Lemmas.Lists

/-! # Exponent vectors of monomials -/

set_option linter.unusedSectionVars false

namespace Verif

variable {R : Type}

/-- Exponent vector of a list of factors. -/
noncomputable def pdegs (l : List (Var R × Int)) : ℕ →₀ ℕ :=
  (l.map (fun ve => Finsupp.single ve.1.id ve.2.toNat)).sum

theorem Mono.degs_eq (m : Mono R) : m.degs = pdegs (m.vars.zip m.exps) := rfl

@[simp] theorem pdegs_nil : pdegs ([] : List (Var R × Int)) = 0 := rfl

@[simp] theorem pdegs_cons (a : Var R × Int) (l) :
    pdegs (a :: l) = Finsupp.single a.1.id a.2.toNat + pdegs l := by
  simp [pdegs]

@[simp] theorem pdegs_append (l l' : List (Var R × Int)) :
    pdegs (l ++ l') = pdegs l + pdegs l' := by
  simp [pdegs]

theorem pdegs_apply_of_notMem {l : List (Var R × Int)} {k : ℕ}
    (h : k ∉ l.map (fun ve => ve.1.id)) : pdegs l k = 0 := by
  induction l with
  | nil => simp
  | cons a l ih =>
    simp only [List.map_cons, List.mem_cons, not_or] at h
    rw [pdegs_cons, Finsupp.add_apply, ih h.2, Finsupp.single_eq_of_ne h.1]

theorem pdegs_apply_of_mem {l : List (Var R × Int)} {v : Var R} {e : Int}
    (hnd : (l.map (fun ve => ve.1.id)).Nodup) (h : (v, e) ∈ l) : pdegs l v.id = e.toNat := by
  induction l with
  | nil => simp at h
  | cons a l ih =>
    simp only [List.map_cons, List.nodup_cons] at hnd
    rw [pdegs_cons, Finsupp.add_apply]
    rcases List.mem_cons.mp h with rfl | h
    · rw [pdegs_apply_of_notMem hnd.1]
      simp
    · rw [ih hnd.2 h, Finsupp.single_eq_of_ne, zero_add]
      rintro e
      exact hnd.1 (e ▸ List.mem_map.mpr ⟨(v, _), h, rfl⟩)

theorem zip_keys {vs : List (Var R)} {es : List Int} (h : es.length = vs.length) :
    (vs.zip es).map (fun ve => ve.1.id) = vs.map (·.id) := by
  have : (vs.zip es).map (fun ve => ve.1.id) = ((vs.zip es).map Prod.fst).map (·.id) := by
    rw [List.map_map]; rfl
  rw [this, List.map_fst_zip (by omega)]

theorem pdegs_zip_replicate_zero (vs : List (Var R)) (n : ℕ) :
    pdegs (vs.zip (List.replicate n 0)) = 0 := by
  induction vs generalizing n with
  | nil => simp
  | cons v vs ih =>
    cases n with
    | zero => simp
    | succ n => simp [List.replicate_succ, ih]

theorem pdegs_zip_modify_add {vs : List (Var R)} {es : List Int} {i : ℕ} {v : Var R} {e : Int}
    (hlen : es.length = vs.length) (hv : vs[i]? = some v) (hpos : ∀ x ∈ es, 0 ≤ x) (he : 0 ≤ e) :
    pdegs (vs.zip (es.modify i (· + e))) = pdegs (vs.zip es) + Finsupp.single v.id e.toNat := by
  induction vs generalizing es i with
  | nil => simp at hv
  | cons w vs ih =>
    cases es with
    | nil => simp at hlen
    | cons x es =>
      cases i with
      | zero =>
        simp only [List.getElem?_cons_zero, Option.some.injEq] at hv
        subst hv
        have hx : 0 ≤ x := hpos x (by simp)
        simp only [List.modify_zero_cons, List.zip_cons_cons, pdegs_cons]
        rw [Int.toNat_add hx he, Finsupp.single_add]
        abel
      | succ i =>
        simp only [List.getElem?_cons_succ] at hv
        simp only [List.modify_succ_cons, List.zip_cons_cons, pdegs_cons]
        rw [ih (by simpa using hlen) hv (fun y hy => hpos y (by simp [hy]))]
        abel

theorem pdegs_zip_modify_sub {vs : List (Var R)} {es : List Int} {i : ℕ} {v : Var R} {e : Int}
    (hlen : es.length = vs.length) (hv : vs[i]? = some v) (he : es[i]? = some e) (hpos : 0 < e) :
    pdegs (vs.zip (es.modify i (· - 1))) + Finsupp.single v.id 1 = pdegs (vs.zip es) := by
  induction vs generalizing es i with
  | nil => simp at hv
  | cons w vs ih =>
    cases es with
    | nil => simp at hlen
    | cons x es =>
      cases i with
      | zero =>
        simp only [List.getElem?_cons_zero, Option.some.injEq] at hv he
        subst hv he
        simp only [List.modify_zero_cons, List.zip_cons_cons, pdegs_cons]
        have : x.toNat = (x - 1).toNat + 1 := by omega
        rw [this, Finsupp.single_add]
        abel
      | succ i =>
        simp only [List.getElem?_cons_succ] at hv he
        simp only [List.modify_succ_cons, List.zip_cons_cons, pdegs_cons]
        rw [← ih (by simpa using hlen) hv he]
        abel

theorem pdegs_zip_eraseIdx {vs : List (Var R)} {es : List Int} {i : ℕ} {v : Var R} {e : Int}
    (hlen : es.length = vs.length) (hv : vs[i]? = some v) (he : es[i]? = some e) :
    pdegs ((vs.eraseIdx i).zip (es.eraseIdx i)) + Finsupp.single v.id e.toNat =
      pdegs (vs.zip es) := by
  induction vs generalizing es i with
  | nil => simp at hv
  | cons w vs ih =>
    cases es with
    | nil => simp at hlen
    | cons x es =>
      cases i with
      | zero =>
        simp only [List.getElem?_cons_zero, Option.some.injEq] at hv he
        subst hv he
        simp only [List.eraseIdx_zero, List.tail_cons, List.zip_cons_cons, pdegs_cons]
        abel
      | succ i =>
        simp only [List.getElem?_cons_succ] at hv he
        simp only [List.eraseIdx_cons_succ, List.zip_cons_cons, pdegs_cons]
        rw [← ih (by simpa using hlen) hv he]
        abel

/-! ## Well-formed monomials -/

section
variable [GoNum R]

theorem Mono.Canon.check {m : Mono R} (h : m.Canon) : m.check = .ok () := by
  simp [Mono.check, h.len, Go.pure_eq]

theorem Mono.Canon.keys_nodup {m : Mono R} (h : m.Canon) :
    ((m.vars.zip m.exps).map (fun ve => ve.1.id)).Nodup := by
  rw [zip_keys h.len]; exact h.nodup

theorem Mono.Canon.degs_apply {m : Mono R} (h : m.Canon) {v : Var R} {e : Int}
    (hm : (v, e) ∈ m.vars.zip m.exps) : m.degs v.id = e.toNat :=
  pdegs_apply_of_mem h.keys_nodup hm

theorem Mono.degs_apply_notMem {m : Mono R} (hlen : m.exps.length = m.vars.length) {k : ℕ}
    (hk : k ∉ m.vars.map (·.id)) : m.degs k = 0 := by
  apply pdegs_apply_of_notMem
  rw [zip_keys hlen]
  exact hk

theorem mem_zip_left {α β : Type} {l : List α} {l' : List β} (h : l'.length = l.length) {a : α}
    (ha : a ∈ l) : ∃ b ∈ l', (a, b) ∈ l.zip l' := by
  obtain ⟨i, hi, rfl⟩ := List.mem_iff_getElem.mp ha
  refine ⟨l'[i]'(by omega), List.getElem_mem _, ?_⟩
  rw [List.mem_iff_getElem]
  exact ⟨i, by simp; omega, by simp⟩

theorem mem_zip_right {α β : Type} {l : List α} {l' : List β} (h : l'.length = l.length) {b : β}
    (hb : b ∈ l') : ∃ a ∈ l, (a, b) ∈ l.zip l' := by
  obtain ⟨i, hi, rfl⟩ := List.mem_iff_getElem.mp hb
  refine ⟨l[i]'(by omega), List.getElem_mem _, ?_⟩
  rw [List.mem_iff_getElem]
  exact ⟨i, by simp; omega, by simp⟩

theorem Mono.Canon.degs_pos {m : Mono R} (h : m.Canon) {k : ℕ} (hk : k ∈ m.vars.map (·.id)) :
    0 < m.degs k := by
  obtain ⟨v, hv, rfl⟩ := List.mem_map.mp hk
  obtain ⟨e, he, hm⟩ := mem_zip_left h.len hv
  have := h.pos e he
  show 0 < m.degs v.id
  rw [h.degs_apply hm]
  omega

theorem Mono.Canon.support {m : Mono R} (h : m.Canon) :
    m.degs.support = (m.vars.map (·.id)).toFinset := by
  ext k
  rw [Finsupp.mem_support_iff, List.mem_toFinset]
  constructor
  · intro hk
    by_contra hc
    exact hk (Mono.degs_apply_notMem h.len hc)
  · intro hk
    exact (h.degs_pos hk).ne'

theorem Mono.Canon.degs_eq_zero {m : Mono R} (h : m.Canon) : m.degs = 0 ↔ m.vars = [] := by
  constructor
  · intro h0
    cases hv : m.vars with
    | nil => rfl
    | cons v vs =>
      have := h.degs_pos (k := v.id) (by simp [hv])
      rw [h0] at this
      simp at this
  · intro h0
    rw [Mono.degs_eq, h0]
    simp

theorem Mono.Canon.values {m : Mono R} (h : m.Canon) :
    m.degs.support.val.map m.degs = ((m.exps.map Int.toNat : List ℕ) : Multiset ℕ) := by
  rw [h.support, List.toFinset_val, List.Nodup.dedup h.nodup, Multiset.map_coe]
  congr 1
  rw [List.map_map]
  apply List.ext_getElem
  · simp [h.len]
  · intro i h1 h2
    simp only [List.length_map] at h1 h2
    simp only [List.getElem_map, Function.comp]
    apply h.degs_apply
    rw [List.mem_iff_getElem]
    exact ⟨i, by simp; omega, by simp⟩

theorem matchesLoop_true {all vs : List (Var R)} {es fs : List Int}
    (h1 : es.length = vs.length) (h2 : fs.length = vs.length) :
    matchesLoop all vs es fs = true ↔ es = fs ∧ ∀ v ∈ vs, v.id ∈ all.map (·.id) := by
  induction vs generalizing es fs with
  | nil =>
    rw [List.length_nil, List.length_eq_zero_iff] at h1 h2
    subst h1 h2
    simp [matchesLoop]
  | cons v vs ih =>
    cases es with
    | nil => simp at h1
    | cons e es =>
      cases fs with
      | nil => simp at h2
      | cons f fs =>
        unfold matchesLoop
        cases h : findVar v all with
        | none =>
          have := findVar_eq_none.mp h
          simp only [Bool.false_eq_true, List.mem_cons, forall_eq_or_imp, false_iff]
          rintro ⟨-, hv, -⟩
          exact this hv
        | some i =>
          have hv : v.id ∈ all.map (·.id) := by
            by_contra hc
            rw [findVar_eq_none.mpr hc] at h
            exact absurd h (by simp)
          simp only [List.mem_cons, forall_eq_or_imp, List.cons.injEq]
          by_cases hef : e = f
          · simp only [hef, ne_eq, not_true_eq_false, if_false, true_and]
            rw [ih (by simpa using h1) (by simpa using h2)]
            tauto
          · simp [hef]

/-- `MatchesFormOf` never panics on well-formed monomials. -/
theorem Mono.matches_ok {m r : Mono R} (hm : m.exps.length = m.vars.length)
    (hr : r.exps.length = r.vars.length) :
    m.matchesFormOf r = .ok (decide (m.vars.length = r.vars.length ∧ m.exps = r.exps ∧
      ∀ v ∈ m.vars, v.id ∈ r.vars.map (·.id))) := by
  have c1 : m.check = .ok () := by simp [Mono.check, hm, Go.pure_eq]
  have c2 : r.check = .ok () := by simp [Mono.check, hr, Go.pure_eq]
  unfold Mono.matchesFormOf
  rw [c1, c2, Go.ok_bind, Go.ok_bind]
  by_cases h : m.vars.length = r.vars.length
  · simp only [h, ne_eq, not_true_eq_false, if_false, true_and]
    rw [Go.pure_eq]
    congr 1
    rw [Bool.eq_iff_iff, matchesLoop_true hm (by omega)]
    simp
  · simp [h, Go.pure_eq]

/-- If two well-formed monomials "match" then their exponent vectors are rearrangements. -/
theorem Mono.matches_rearr {m r : Mono R} (hm : m.Canon) (hr : r.Canon)
    (h : m.matchesFormOf r = .ok true) : Rearr m.degs r.degs := by
  rw [Mono.matches_ok hm.len hr.len] at h
  simp only [Except.ok.injEq, decide_eq_true_eq] at h
  obtain ⟨hl, he, hv⟩ := h
  refine ⟨?_, ?_⟩
  · rw [hm.support, hr.support]
    apply Finset.eq_of_subset_of_card_le
    · intro k hk
      rw [List.mem_toFinset, List.mem_map] at hk
      obtain ⟨v, hv', rfl⟩ := hk
      exact List.mem_toFinset.mpr (hv v hv')
    · rw [List.toFinset_card_of_nodup hm.nodup, List.toFinset_card_of_nodup hr.nodup]
      simp [hl]
  · rw [hm.values, hr.values, he]

/-! ## Products -/

theorem addExponent_ok {vs : List (Var R)} {md : List Int} {v : Var R} {e : Int}
    (hlen : md.length = vs.length) (hpos : ∀ x ∈ md, 0 ≤ x) (he : 0 ≤ e)
    (hv : v.id ∈ vs.map (·.id)) :
    Go.Ok (addExponent vs md (v, e)) (fun md' => md'.length = vs.length ∧ (∀ x ∈ md', 0 ≤ x) ∧
      pdegs (vs.zip md') = pdegs (vs.zip md) + Finsupp.single v.id e.toNat) := by
  obtain ⟨i, hi⟩ := findVar_isSome hv
  obtain ⟨w, hw, hid⟩ := findVar_some hi
  unfold addExponent
  simp only [hi]
  refine Go.ok_pure ⟨by simp [hlen], ?_, ?_⟩
  · intro x hx
    obtain ⟨j, hj, rfl⟩ := List.mem_iff_getElem.mp hx
    rw [List.getElem_modify]
    have hj' : j < md.length := by simpa using hj
    have := hpos md[j] (List.getElem_mem _)
    split <;> omega
  · rw [pdegs_zip_modify_add hlen hw hpos he, hid]

theorem addExponents_ok {vs : List (Var R)} (l : List (Var R × Int)) {md : List Int}
    (hlen : md.length = vs.length) (hpos : ∀ x ∈ md, 0 ≤ x) (he : ∀ ve ∈ l, 0 ≤ ve.2)
    (hv : ∀ ve ∈ l, ve.1.id ∈ vs.map (·.id)) :
    Go.Ok (l.foldlM (addExponent vs) md) (fun md' => md'.length = vs.length ∧
      (∀ x ∈ md', 0 ≤ x) ∧ pdegs (vs.zip md') = pdegs (vs.zip md) + pdegs l) := by
  induction l generalizing md with
  | nil => exact ⟨md, rfl, hlen, hpos, by simp⟩
  | cons a l ih =>
    rw [List.foldlM_cons]
    obtain ⟨v, e⟩ := a
    refine (addExponent_ok hlen hpos (he (v, e) (by simp)) (hv (v, e) (by simp))).bind ?_
    rintro md' ⟨h1, h2, h3⟩
    refine (ih h1 h2 (fun ve h => he ve (by simp [h])) (fun ve h => hv ve (by simp [h]))).mono ?_
    rintro md'' ⟨h1', h2', h3'⟩
    refine ⟨h1', h2', ?_⟩
    rw [h3', h3, pdegs_cons, add_assoc]

/-- From an exponent vector that is positive on all factors, positivity of the exponents. -/
theorem exps_pos_of_degs {vs : List (Var R)} {es : List Int} (hlen : es.length = vs.length)
    (hnd : (vs.map (·.id)).Nodup) (hp : ∀ k ∈ vs.map (·.id), 0 < pdegs (vs.zip es) k) :
    ∀ e ∈ es, 0 < e := by
  intro e he
  obtain ⟨v, hv, hm⟩ := mem_zip_right hlen he
  have h1 := hp v.id (List.mem_map.mpr ⟨v, hv, rfl⟩)
  rw [pdegs_apply_of_mem (by rw [zip_keys hlen]; exact hnd) hm] at h1
  omega

theorem Mono.mulMono_ok {m r : Mono R} (hm : m.Canon) (hr : r.Canon) :
    Go.Ok (m.mulMono r) (fun p => p.Canon ∧ p.degs = m.degs + r.degs ∧
      p.coeff = GoNum.mul m.coeff r.coeff ∧ (∀ v ∈ p.vars, v ∈ m.vars ∨ v ∈ r.vars) ∧
      p.vars = uniqueVars (m.vars ++ r.vars)) := by
  have hids : ∀ k, k ∈ (uniqueVars (m.vars ++ r.vars)).map (·.id) ↔
      k ∈ m.vars.map (·.id) ∨ k ∈ r.vars.map (·.id) := by
    intro k
    rw [uniqueVars_ids, List.map_append, List.mem_append]
  unfold Mono.mulMono
  refine (addExponents_ok (vs := uniqueVars (m.vars ++ r.vars)) (m.vars.zip m.exps)
    (by simp) (by intro x hx; rw [List.eq_of_mem_replicate hx]) ?_ ?_).bind ?_
  · intro ve hve
    exact (hm.pos _ (List.of_mem_zip (a := ve.1) (b := ve.2) hve).2).le
  · intro ve hve
    rw [hids]
    exact Or.inl (List.mem_map.mpr ⟨_, (List.of_mem_zip (a := ve.1) (b := ve.2) hve).1, rfl⟩)
  rintro md1 ⟨l1, p1, d1⟩
  refine (addExponents_ok (r.vars.zip r.exps) l1 p1 ?_ ?_).bind ?_
  · intro ve hve
    exact (hr.pos _ (List.of_mem_zip (a := ve.1) (b := ve.2) hve).2).le
  · intro ve hve
    rw [hids]
    exact Or.inr (List.mem_map.mpr ⟨_, (List.of_mem_zip (a := ve.1) (b := ve.2) hve).1, rfl⟩)
  rintro md2 ⟨l2, p2, d2⟩
  have hd : pdegs ((uniqueVars (m.vars ++ r.vars)).zip md2) = m.degs + r.degs := by
    rw [d2, d1, pdegs_zip_replicate_zero, zero_add]
    rfl
  have hsub : ∀ v ∈ uniqueVars (m.vars ++ r.vars), v ∈ m.vars ∨ v ∈ r.vars := by
    intro v hv
    exact List.mem_append.mp (uniqueVars_subset hv)
  refine Go.ok_pure ⟨⟨l2, ?_, uniqueVars_nodup _, ?_⟩, hd, rfl, hsub, rfl⟩
  · apply exps_pos_of_degs l2 (uniqueVars_nodup _)
    intro k hk
    rw [hd, Finsupp.add_apply]
    rcases (hids k).mp hk with h | h
    · have := hm.degs_pos h; omega
    · have := hr.degs_pos h; omega
  · intro v hv
    rcases hsub v hv with h | h
    · exact hm.ok v h
    · exact hr.ok v h

theorem Mono.mulVar_spec {m : Mono R} (hm : m.Canon) {v : Var R} (hv : v.OK) :
    (m.mulVar v).Canon ∧ (m.mulVar v).degs = m.degs + Finsupp.single v.id 1 ∧
      (m.mulVar v).coeff = m.coeff ∧ ∀ w ∈ (m.mulVar v).vars, w ∈ m.vars ∨ w = v := by
  unfold Mono.mulVar
  cases h : findVar v m.vars with
  | none =>
    have hn := findVar_eq_none.mp h
    simp only
    refine ⟨⟨by simp [hm.len], ?_, ?_, ?_⟩, ?_, trivial, ?_⟩
    · intro e he
      rcases List.mem_append.mp he with he | he
      · exact hm.pos e he
      · simp only [List.mem_singleton] at he
        omega
    · rw [List.map_append, List.nodup_append]
      refine ⟨hm.nodup, by simp, ?_⟩
      rintro a ha b hb rfl
      simp only [List.map_cons, List.map_nil, List.mem_singleton] at hb
      exact hn (hb ▸ ha)
    · intro w hw
      rcases List.mem_append.mp hw with hw | hw
      · exact hm.ok w hw
      · simp only [List.mem_singleton] at hw
        exact hw ▸ hv
    · rw [Mono.degs_eq, Mono.degs_eq, List.zip_append hm.len.symm, pdegs_append]
      simp
    · intro w hw
      rcases List.mem_append.mp hw with hw | hw
      · exact Or.inl hw
      · simp only [List.mem_singleton] at hw
        exact Or.inr hw
  | some i =>
    obtain ⟨w, hw, hid⟩ := findVar_some h
    simp only
    refine ⟨⟨by simp [hm.len], ?_, hm.nodup, hm.ok⟩, ?_, trivial, fun w hw => Or.inl hw⟩
    · intro x hx
      obtain ⟨j, hj, rfl⟩ := List.mem_iff_getElem.mp hx
      rw [List.getElem_modify]
      have hj' : j < m.exps.length := by simpa using hj
      have := hm.pos m.exps[j] (List.getElem_mem _)
      split <;> omega
    · rw [Mono.degs_eq, Mono.degs_eq, pdegs_zip_modify_add hm.len hw
        (fun x hx => (hm.pos x hx).le) (by decide), hid]
      rfl

end

end Verif
