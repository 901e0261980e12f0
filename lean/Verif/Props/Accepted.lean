import Verif.Spec.Accepted
import Verif.Props.Validation
import Verif.Props.RoundTrip

/-! # C107: exactly what validation accepts -/

set_option linter.unusedSimpArgs false

namespace Paragami
open Pattern NDArray Spec

theorem Flt.eq_nan_or {x : Flt} : x = .nan ∨ x.NotNaN := by cases x <;> simp

theorem Flt.fin_or_pinf {x : Flt} (h1 : x.NotNaN) (h2 : x.lt 0 = false) : (∃ r : ℝ, x = .fin r ∧ 0 ≤ r) ∨ x = .pinf := by
  have h0 : (0 : Flt) = Flt.fin 0 := by simp
  rw [h0] at h2
  cases x with
  | fin r => exact .inl ⟨r, rfl, by simpa [Flt.lt] using h2⟩
  | pinf => exact .inr rfl
  | ninf => simp [Flt.lt] at h2
  | nan => simp at h1

theorem Flt.foldl_pinf : ∀ {l : List Flt} {c : Flt}, (∀ x ∈ l, (∃ r : ℝ, x = .fin r) ∨ x = .pinf) → ((∃ r : ℝ, c = .fin r) ∨ c = .pinf) →
    (c = .pinf ∨ Flt.pinf ∈ l) → l.foldl (· + ·) c = .pinf
  | [], c, _, _, h => by
    rcases h with h | h
    · exact h
    · cases h
  | a :: l, c, h1, h2, h => by
    rw [List.foldl_cons]
    have ha := h1 a (by simp)
    have e1 : ∀ r : ℝ, Flt.fin r + Flt.pinf = Flt.pinf := fun _ => rfl
    have e2 : ∀ r : ℝ, Flt.pinf + Flt.fin r = Flt.pinf := fun _ => rfl
    have e3 : Flt.pinf + Flt.pinf = Flt.pinf := rfl
    have e4 : ∀ r s : ℝ, Flt.fin r + Flt.fin s = Flt.fin (r + s) := fun _ _ => rfl
    refine Flt.foldl_pinf (fun x hx => h1 x (List.mem_cons_of_mem a hx)) ?_ ?_
    · rcases ha with ⟨r, rfl⟩ | rfl <;> rcases h2 with ⟨s, rfl⟩ | rfl
      · exact .inl ⟨_, e4 _ _⟩
      · exact .inr (e2 _)
      · exact .inr (e1 _)
      · exact .inr e3
    · rcases h with rfl | h
      · left
        rcases ha with ⟨r, rfl⟩ | rfl
        · exact e2 _
        · exact e3
      · rcases List.mem_cons.mp h with h | h
        · left
          rw [← h]
          rcases h2 with ⟨s, rfl⟩ | rfl
          · exact e1 _
          · exact e3
        · exact .inr h

theorem rowAccepted_iff {r : List Flt} : RowAccepted r ↔
    (∀ x ∈ r, x.lt 0 = false) ∧ (Flt.sum r - 1).abs.gt (Flt.fin (1 / 10 ^ 12)) = false := by
  have h0 : (0 : Flt) = Flt.fin 0 := by simp
  have h1 : (1 : Flt) = Flt.fin 1 := by simp
  have hneg : (∀ x ∈ r, x = .nan ∨ Flt.le 0 x = true) ↔ ∀ x ∈ r, x.lt 0 = false := by
    apply forall₂_congr
    intro x _
    rcases Flt.eq_nan_or (x := x) with rfl | hn
    · simp [Flt.lt]
    · rw [Flt.le_iff_not_lt (by simp) hn]
      exact or_iff_right (by rintro rfl; simp at hn)
  rw [RowAccepted, hneg]
  refine and_congr_right fun hn => ?_
  by_cases hnan : Flt.nan ∈ r
  · rw [Flt.sum_nan hnan]
    exact iff_of_true (.inl hnan) rfl
  · have hnn : ∀ x ∈ r, x.NotNaN := fun x hx => by
      rcases Flt.eq_nan_or (x := x) with rfl | h
      · exact absurd hx hnan
      · exact h
    have hc := fun x hx => Flt.fin_or_pinf (hnn x hx) (hn x hx)
    by_cases hinf : Flt.pinf ∈ r
    · have : Flt.sum r = .pinf := Flt.foldl_pinf (fun x hx => by rcases hc x hx with ⟨y, e, _⟩ | e; exacts [.inl ⟨y, e⟩, .inr e])
        (.inl ⟨_, h0⟩) (.inr hinf)
      rw [this]
      refine iff_of_false ?_ ?_
      · rintro (h | ⟨q, rfl, _⟩)
        · exact hnan h
        · simp at hinf
      · rw [h1]
        have e : Flt.pinf - Flt.fin 1 = Flt.pinf := rfl
        rw [e]
        simp [Flt.abs, Flt.gt, Flt.lt]
    · obtain ⟨q, rfl⟩ : ∃ q : List ℝ, r = q.map .fin := by
        clear hneg hn hnan hnn
        induction r with
        | nil => exact ⟨[], rfl⟩
        | cons x r ih =>
          obtain ⟨q, rfl⟩ := ih (fun y hy => hc y (by simp [hy])) (fun h => hinf (by simp [h]))
          rcases hc x (by simp) with ⟨y, rfl, _⟩ | rfl
          · exact ⟨y :: q, rfl⟩
          · simp at hinf
      rw [Flt.sum_fin, h1, Flt.sub_fin]
      simp only [Flt.abs, Flt.gt, Flt.lt, decide_eq_false_iff_not, not_lt]
      constructor
      · rintro (h | ⟨q', e, h⟩)
        · exact absurd h hnan
        · have hinj : Function.Injective (List.map Flt.fin) := List.map_injective_iff.mpr fun a b h => by cases h; rfl
          rw [hinj e]; exact h
      · intro h; exact .inr ⟨q, rfl, h⟩

theorem accepted_iff (p : Pattern) (hw : p.WF) (hf : p.FiniteLb) : ∀ v : Val Flt, v.WF → (Acc p v (some true) ↔ Accepted p v) := by
  revert hw hf
  induction p using Pattern.ind
    (Q := fun es => WFEs es → FiniteLbEs es → ∀ vs : List (String × Val Flt), Val.WFEs vs → (AccEs es vs (some true) ↔ AcceptedEs es vs)) with
  | hnum c s lb ub dv fd =>
    intro hw _ v hv
    simp only [Pattern.WF] at hw
    rw [acc_numeric]
    cases v with
    | dict d => simp [Accepted]
    | arr a =>
      simp only [Val.arr.injEq, exists_eq_left', Option.getD_some, forall_const, Accepted, Elem.toFlt, id, Flt.gt]
      refine and_congr_right fun _ => forall₂_congr fun x hx => ?_
      rcases Flt.eq_nan_or (x := x) with rfl | hn
      · simp only [true_or, iff_true]
        constructor <;> (generalize lb.toFlt = l; generalize ub.toFlt = u; cases l <;> cases u <;> rfl)
      · rw [Flt.le_iff_not_lt hw.2.2.2.1 hn, Flt.le_iff_not_lt hn hw.2.2.2.2.1]
        exact (or_iff_right (by rintro rfl; simp at hn)).symm
  | hsim k s dv fd =>
    intro hw _ v hv
    rw [acc_simplex]
    cases v with
    | dict d => simp [Accepted]
    | arr a =>
      simp only [Val.arr.injEq, exists_eq_left', Option.getD_some, forall_const, Accepted]
      have e : ∀ l : List Flt, l.map (Elem.toFlt : Flt → Flt) = l := fun l => by
        show l.map id = l; simp
      simp only [e, rowAccepted_iff]
      refine and_congr_right fun hs => ?_
      have hlen : a.data.length = s.prod * k := by
        have : a.WF := hv
        rw [this, hs, List.prod_append]; simp
      constructor
      · rintro ⟨h1, h2⟩ i hi
        exact ⟨fun x hx => h1 x (mem_chunk hx), h2 i hi⟩
      · intro h
        refine ⟨fun x hx => ?_, fun i hi => (h i hi).2⟩
        rw [← chunk_flatMap _ _ _ hlen] at hx
        obtain ⟨i, hi, hx⟩ := List.mem_flatMap.mp hx
        exact (h i (List.mem_range.mp hi)).1 x hx
  | hpsd n lb dv fd =>
    intro hw hf v hv
    simp only [FiniteLb] at hf
    obtain ⟨l, hl⟩ := Flt.isFin_iff.mp hf
    rw [acc_psd]
    cases v with
    | dict d => simp [Accepted]
    | arr a =>
      simp only [Val.arr.injEq, exists_eq_left', Option.getD_some, forall_const, Accepted]
      have e : ∀ l : List Flt, l.map (Elem.toFlt : Flt → Flt) = l := fun l => by
        show l.map id = l; simp
      simp only [e]
      refine and_congr_right fun hs => ?_
      have hd : a.data.length = n * n := by
        have : a.WF := hv
        rw [this, hs]; simp
      constructor
      · rintro ⟨h1, h2⟩
        have hnn : ∀ i < n, ∀ j < n, (entry n a.data i j).NotNaN := by
          intro i hi j hj
          have := h2 i hi j hj
          rcases Flt.eq_nan_or (x := entry n a.data i j) with h | h
          · rw [h] at this
            generalize entry n a.data j i = y at this
            cases y <;> simp [Flt.eq] at this
          · exact h
        refine ⟨fun x hx => ?_, fun i hi => ⟨_, entry_eq hd hi hi, ?_⟩, fun i hi j hj => ?_⟩
        · obtain ⟨m, hm, rfl⟩ := List.mem_iff_getElem.mp hx
          rw [hd] at hm
          have hnpos : 0 < n := by
            rcases Nat.eq_zero_or_pos n with rfl | h
            · simp at hm
            · exact h
          have h3 := entry_eq hd (Nat.div_lt_of_lt_mul (by rwa [mul_comm] at hm : m < n * n)) (Nat.mod_lt m hnpos)
          rw [Nat.div_add_mod' m n] at h3
          have h4 := hnn (m / n) (Nat.div_lt_of_lt_mul hm) (m % n) (Nat.mod_lt m hnpos)
          rw [List.getElem?_eq_getElem (by rw [hd]; exact hm), Option.some.injEq] at h3
          rw [h3]
          intro h
          rw [h] at h4
          simp at h4
        · rw [hl, Flt.le_iff_not_lt (by simp) (hnn i hi i hi), ← hl]
          exact h1 i hi
        · rw [entry_eq hd hi hj, entry_eq hd hj hi, Option.some.injEq]
          exact ((Flt.eq_iff (hnn j hj i hi)).mp (h2 i hi j hj)).symm
      · rintro ⟨h1, h2, h3⟩
        have hnn : ∀ i < n, ∀ j < n, (entry n a.data i j).NotNaN := by
          intro i hi j hj
          have := h1 _ (List.mem_of_getElem? (entry_eq hd hi hj))
          rcases Flt.eq_nan_or (x := entry n a.data i j) with h | h
          · exact absurd h this
          · exact h
        refine ⟨fun i hi => ?_, fun i hi j hj => ?_⟩
        · obtain ⟨x, e1, e2⟩ := h2 i hi
          rw [entry_eq hd hi hi, Option.some.injEq] at e1
          subst e1
          rwa [hl, Flt.le_iff_not_lt (by simp) (hnn i hi i hi), ← hl] at e2
        · have := h3 i hi j hj
          rw [entry_eq hd hi hj, entry_eq hd hj hi, Option.some.injEq] at this
          exact (Flt.eq_iff (hnn j hj i hi)).mpr this.symm
  | harr s b fd ih =>
    intro hw hf v hv
    simp only [Pattern.WF] at hw
    simp only [FiniteLb] at hf
    rw [acc_array]
    cases v with
    | dict d => simp [Accepted]
    | arr a =>
      simp only [Val.arr.injEq, exists_eq_left', Accepted]
      exact and_congr_right fun hs => forall₂_congr fun i hi => ih hw.2.2 hf _ (chunk_wf hv hs hi)
  | hdict es l fd ih =>
    intro hw hf v hv
    simp only [Pattern.WF] at hw
    simp only [FiniteLb] at hf
    rw [acc_dict]
    cases v with
    | arr d => simp [Accepted]
    | dict vs =>
      simp only [Val.dict.injEq, exists_eq_left', Accepted]
      exact ih hw.2 hf vs hv
  | hnil => simp [AccEs, AcceptedEs]
  | hcons k p r ihp ihr hw hf vs hv =>
    simp only [WFEs] at hw
    simp only [FiniteLbEs] at hf
    simp only [AccEs, AcceptedEs]
    exact and_congr (exists_congr fun v => and_congr_right fun hl => ihp hw.1 hf.1 v (WFEs_lookup hv hl)) (ihr hw.2.2 hf.2 vs hv)

/-- **C107.**  For every pattern and every value at all, NaN and infinities included, `validate_folded(v, validate_value=True)` returns true exactly
when: numeric entries are NaN or between the bounds; simplexes have no negative entry and either a NaN or a sum within `1e-12` of one; matrices have
no NaN, are symmetric and have a diagonal of at least `diag_lb`. -/
theorem C107_validate {p : Pattern} (hp : Built p) (hf : p.FiniteLb) {v : Val Flt} (hv : v.WF) :
    (∃ msg, p.validate v (some true) = .ok (true, msg)) ↔ Accepted p v := accepted_iff p hp.wf hf v hv

theorem nanFree_of_accepted (p : Pattern) : ∀ v : Val Flt, Accepted p v → NaNFreeMatrices p v := by
  induction p using Pattern.ind
    (Q := fun es => ∀ vs : List (String × Val Flt), AcceptedEs es vs → NaNFreeMatricesEs es vs) with
  | hnum => intro v _; cases v <;> trivial
  | hsim => intro v _; cases v <;> trivial
  | hpsd n lb dv fd =>
    intro v h
    cases v with
    | dict d => trivial
    | arr a => exact h.2.1
  | harr s b fd ih =>
    intro v h
    cases v with
    | dict d => trivial
    | arr a => exact fun i hi => ih _ (h.2 i hi)
  | hdict es l fd ih =>
    intro v h
    cases v with
    | arr d => trivial
    | dict vs => exact ih vs h
  | hnil => trivial
  | hcons k p r ihp ihr vs h =>
    obtain ⟨⟨v, hl, hv⟩, h⟩ := h
    exact ⟨fun v' hv' => by rw [hl] at hv'; cases hv'; exact ihp v hv, ihr vs h⟩

/-- **C107, matrices.**  NaN never gets into a matrix through validation, at any depth: a value with a NaN in a matrix is not accepted. -/
theorem C107_matrices {p : Pattern} (hp : Built p) (hf : p.FiniteLb) {v : Val Flt} (hv : v.WF) {msg : String}
    (h : p.validate v (some true) = .ok (true, msg)) : NaNFreeMatrices p v :=
  nanFree_of_accepted p v ((C107_validate hp hf hv).mp ⟨msg, h⟩)

/-- A value of the running example with NaN and infinities. -/
noncomputable def exAcceptedVal (m : Flt) : Val Flt :=
  .dict [("v", .arr ⟨[3], [.nan, .pinf, .fin 1]⟩),
    ("a", .arr ⟨[2, 3], [.nan, .fin 1, .pinf, .fin (1 / 2), .fin (1 / 2), .fin 0]⟩),
    ("d", .dict [("m", .arr ⟨[2, 2], [.fin 1, m, m, .fin 2]⟩), ("s", .arr ⟨[1], [.fin 0]⟩)])]

/-- C107 is not vacuous: NaN among numbers and in a simplex, infinities among numbers, in a simplex with NaN and in a matrix. -/
example : (exAcceptedVal .pinf).WF ∧ Accepted exPat (exAcceptedVal .pinf) := by
  refine ⟨by simp [exAcceptedVal, Val.WF, Val.WFEs, NDArray.WF], ⟨_, rfl, rfl, ?_⟩, ⟨_, rfl, rfl, ?_⟩, ⟨_, rfl, ⟨_, rfl, ?_⟩, ⟨_, rfl, rfl, ?_⟩, trivial⟩, trivial⟩
  · simp [PyNum.toFlt, Flt.le, Flt.lt, Flt.eq]
  · intro i hi
    refine ⟨rfl, fun j hj => ?_⟩
    have : j = 0 := by simp at hj; exact hj
    subst this
    have : i = 0 ∨ i = 1 := by simp at hi; omega
    rcases this with rfl | rfl
    · have e : block 3 (block (Pattern.simplex 3 [] true none).shape.prod
          ([.nan, .fin 1, .pinf, .fin (1 / 2), .fin (1 / 2), .fin 0] : List Flt) 0) 0 = [.nan, .fin 1, .pinf] := rfl
      rw [e]
      exact ⟨by simp [Flt.le, Flt.lt], .inl (by simp)⟩
    · have e : block 3 (block (Pattern.simplex 3 [] true none).shape.prod
          ([.nan, .fin 1, .pinf, .fin (1 / 2), .fin (1 / 2), .fin 0] : List Flt) 1) 0 = [.fin (1 / 2), .fin (1 / 2), .fin 0] := rfl
      rw [e]
      exact ⟨by simp [Flt.le, Flt.lt, Flt.eq], .inr ⟨[1 / 2, 1 / 2, 0], rfl, by norm_num⟩⟩
  · refine ⟨rfl, by simp, fun i hi => ?_, fun i hi j hj => ?_⟩
    · have : i = 0 ∨ i = 1 := by omega
      rcases this with rfl | rfl
      · exact ⟨_, rfl, by simp [PyNum.toFlt, Flt.le, Flt.lt, Flt.eq]; norm_num⟩
      · exact ⟨_, rfl, by simp [PyNum.toFlt, Flt.le, Flt.lt, Flt.eq]; norm_num⟩
    · have h1 : i = 0 ∨ i = 1 := by omega
      have h2 : j = 0 ∨ j = 1 := by omega
      rcases h1 with rfl | rfl <;> rcases h2 with rfl | rfl <;> rfl
  · simp [PyNum.toFlt, Flt.le, Flt.lt, Flt.eq]

/-- With NaN in the matrix the value is not accepted. -/
example : ¬ Accepted exPat (exAcceptedVal .nan) := by
  intro h
  have := (nanFree_of_accepted _ _ h).2.2.1 _ rfl
  have := this.1 _ rfl .nan (by simp)
  exact this rfl

end Paragami
