import Verif.Proofs.Settle
import Verif.Props.Validation
import Verif.Props.RoundTrip
import Verif.Props.PSDFactor

/-! # C105: exactly which values survive a free round trip -/

set_option linter.unusedSimpArgs false

namespace Paragami
open Pattern NDArray Spec

/-! ### Valid real values are the closed ones -/

theorem exists_fins : ∀ {l : List Flt}, (∀ x ∈ l, x.IsFin) → ∃ r : List ℝ, l = r.map .fin
  | [], _ => ⟨[], rfl⟩
  | x :: l, h => by
    obtain ⟨r, rfl⟩ := exists_fins (l := l) fun y hy => h y (by simp [hy])
    obtain ⟨y, rfl⟩ := Flt.isFin_iff.mp (h x (by simp))
    exact ⟨y :: r, rfl⟩

theorem matData_of_list {n : Nat} {r : List ℝ} (h : r.length = n * n) :
    r.map Flt.fin = matData (Matrix.of fun i j : Fin n => r.getD (i.val * n + j.val) 0) := by
  have e := congrArg NDArray.data (matData_of n n fun i j => r.getD (i * n + j) 0)
  simp only [ofFn2] at e
  rw [← e]
  have h' : (r.map Flt.fin).length = n * n := by simpa using h
  conv_lhs => rw [← chunk_flatMap n n _ h']
  apply List.flatMap_congr
  intro i hi
  apply List.ext_getElem?
  intro j
  by_cases hj : j < n
  · rw [← getElem?_of_chunk hj]
    have hb : i * n + j < r.length := by
      rw [h]
      have := List.mem_range.mp hi
      calc i * n + j < i * n + n := by omega
        _ = (i + 1) * n := by ring
        _ ≤ n * n := Nat.mul_le_mul_right _ this
    simp [hj, hb]
  · rw [List.getElem?_eq_none (by rw [length_chunk h' (List.mem_range.mp hi)]; omega), List.getElem?_eq_none (by simpa using hj)]

theorem closed_of_accepted (p : Pattern) (hw : p.WF) (hf : p.FiniteLb) : ∀ v : Val Flt, v.WF → FiniteMatrices p v → Accepted p v →
    Closed p v := by
  revert hw hf
  induction p using Pattern.ind
    (Q := fun es => WFEs es → FiniteLbEs es → ∀ vs : List (String × Val Flt), Val.WFEs vs → FiniteMatricesEs es vs → AcceptedEs es vs →
      ClosedEs es vs) with
  | hnum c s lb ub dv fd =>
    intro _ _ v hv hr h
    cases v with
    | dict d => simp [Accepted] at h
    | arr a => exact ⟨hv, h.1, h.2⟩
  | hsim k s dv fd =>
    intro _ _ v hv hr h
    cases v with
    | dict d => simp [Accepted] at h
    | arr a => exact ⟨hv, h.1, h.2⟩
  | hpsd n lb dv fd =>
    intro _ hf v hv hr h
    cases v with
    | dict d => simp [Accepted] at h
    | arr a =>
      simp only [FiniteLb] at hf
      obtain ⟨l, hl⟩ := Flt.isFin_iff.mp hf
      obtain ⟨h1, h0, h2, h3⟩ := h
      obtain ⟨r, e⟩ := exists_fins (l := a.data) fun x hx => by
        have q1 := h0 x hx
        have q2 := hr x hx
        cases x <;> simp_all [Flt.IsFin]
      obtain ⟨sh, d⟩ := a
      simp only at h1 e h2 h3
      subst h1 e
      have hv : ((r.map Flt.fin).length) = [n, n].prod := hv
      have hlen : r.length = n * n := by simpa using hv
      have hb : ∀ i j : Fin n, i.val * n + j.val < r.length := by
        intro i j
        rw [hlen]
        calc i.val * n + j.val < i.val * n + n := by omega
          _ = (i.val + 1) * n := by ring
          _ ≤ n * n := Nat.mul_le_mul_right _ i.2
      refine ⟨_, by rw [matData_of_list hlen], ?_, fun i => ?_⟩
      · ext i j
        have := h3 i i.2 j j.2
        have b1 := hb i j
        have b2 := hb j i
        simp [b1, b2] at this
        simp [Matrix.transpose_apply, b1, b2, this]
      · obtain ⟨x, h4, h5⟩ := h2 i i.2
        have b1 := hb i i
        simp [b1] at h4
        subst h4
        rw [hl, Flt.le_iff_not_lt (by simp) (by simp)] at h5
        rw [hl]
        simpa [Flt.lt, b1] using h5
  | harr s b fd ih =>
    intro hw hf v hv hr h
    cases v with
    | dict d => simp [Accepted] at h
    | arr a => exact ⟨hv, h.1, fun i hi => ih hw.2.2 hf _ (chunk_wf hv h.1 hi) (hr i hi) (h.2 i hi)⟩
  | hdict es l fd ih =>
    intro hw hf v hv hr h
    cases v with
    | arr d => simp [Accepted] at h
    | dict vs => exact ih hw.2 hf vs hv hr h
  | hnil => trivial
  | hcons k p r ihp ihr hw hf vs hv hr h =>
    obtain ⟨⟨v, hl, h1⟩, h2⟩ := h
    exact ⟨⟨v, hl, ihp hw.1 hf.1 v (WFEs_lookup hv hl) (hr.1 v hl) h1⟩, ihr hw.2.2 hf.2 vs hv hr.2 h2⟩

theorem finite_of_closed (p : Pattern) : ∀ v : Val Flt, Closed p v → FiniteMatrices p v := by
  induction p using Pattern.ind
    (Q := fun es => ∀ vs : List (String × Val Flt), ClosedEs es vs → FiniteMatricesEs es vs) with
  | hnum => intro v _; cases v <;> trivial
  | hsim => intro v _; cases v <;> trivial
  | hpsd n lb dv fd =>
    intro v h
    cases v with
    | dict d => trivial
    | arr a =>
      obtain ⟨M, rfl, _⟩ := h
      intro x hx
      simp only [matData, List.mem_flatten, List.mem_ofFn] at hx
      obtain ⟨_, ⟨i, rfl⟩, hx⟩ := hx
      obtain ⟨j, rfl⟩ := List.mem_ofFn.mp hx
      simp
  | harr s b fd ih =>
    intro v h
    cases v with
    | dict d => trivial
    | arr a => exact fun i hi => ih _ (h.2.2 i hi)
  | hdict es l fd ih =>
    intro v h
    cases v with
    | arr d => trivial
    | dict vs => exact ih vs h
  | hnil => trivial
  | hcons k p r ihp ihr vs h =>
    obtain ⟨⟨v, hl, hv⟩, h⟩ := h
    exact ⟨fun v' hv' => by rw [hl] at hv'; cases hv'; exact ihp v hv, ihr vs h⟩

/-! ### Which values come back -/

theorem forall₂_eq {lb ub : Flt} : ∀ {l m : List Flt}, List.Forall₂ (EntrySettles lb ub) l m → ub.NotNaN →
    (m = l ↔ ¬ (lb.IsFin ∧ ub.IsFin ∧ ub ∈ l))
  | _, _, .nil, _ => by simp
  | x :: l, y :: m, .cons h h', hn => by
    have ih := forall₂_eq h' hn
    by_cases hx : lb.IsFin ∧ ub.IsFin ∧ x = ub
    · have h1 := h.1 hx
      subst h1
      have h2 : x.NotNaN := by rw [hx.2.2]; exact hn
      constructor
      · intro e
        injection e with e _
        subst e
        simp at h2
      · intro e
        exact absurd ⟨hx.1, hx.2.1, by simp [hx.2.2]⟩ e
    · have h1 := h.2 hx
      subst h1
      simp only [List.cons.injEq, true_and, List.mem_cons]
      rw [ih]
      constructor
      · rintro h2 ⟨h3, h4, h5 | h5⟩
        · exact hx ⟨h3, h4, h5.symm⟩
        · exact h2 ⟨h3, h4, h5⟩
      · rintro h2 ⟨h3, h4, h5⟩
        exact h2 ⟨h3, h4, .inr h5⟩

theorem real_row {r : List Flt} (h : RowAccepted r) {x : ℝ} {xs : List ℝ} (e : r = (x :: xs).map .fin) : ∀ y ∈ x :: xs, 0 ≤ y := by
  intro y hy
  have := h.1 (.fin y) (by rw [e]; exact List.mem_map_of_mem hy)
  have h0 : (0 : Flt) = Flt.fin 0 := by simp
  rw [h0] at this
  rcases this with h | h
  · cases h
  · rw [Flt.le_iff_not_lt (by simp) (by simp)] at h
    simpa [Flt.lt] using h

theorem row_eq {r q : List Flt} (h : RowSettles r q) (ha : RowAccepted r) :
    q = r ↔ (∀ x ∈ r, x = .nan) ∨ ∃ (x : ℝ) (xs : List ℝ), r = (x :: xs).map .fin ∧ 0 < x ∧ (x :: xs).sum = 1 := by
  have hinj : Function.Injective (List.map Flt.fin) := List.map_injective_iff.mpr fun a b h => by cases h; rfl
  rcases h with ⟨hnan, rfl⟩ | ⟨x, xs, h1, h2, h3⟩
  · constructor
    · intro e
      left
      rw [← e]
      intro x hx
      exact List.eq_of_mem_replicate hx
    · rintro (h | ⟨x, xs, h, _⟩)
      · exact (List.eq_replicate_iff.mpr ⟨rfl, h⟩).symm
      · rw [h] at hnan
        simp at hnan
  have hn := real_row ha h1
  have h0 := hn x (by simp)
  have hsum : 0 < x → 0 < (x :: xs).sum := fun hx => by
    rw [List.sum_cons]
    have := List.sum_nonneg fun y hy => hn y (List.mem_cons_of_mem x hy)
    linarith
  constructor
  · intro hq
    right
    refine ⟨x, xs, h1, ?_⟩
    rcases h0.eq_or_lt with h0 | h0
    · have h4 := h2 h0.symm
      rw [hq, h1] at h4
      simp at h4
      simp [List.replicate_succ] at h4
    · refine ⟨h0, ?_⟩
      have h4 := h3 h0
      rw [hq, h1] at h4
      have h5 := hinj h4
      simp only [List.map_cons, List.cons.injEq] at h5
      have h6 := hsum h0
      have h7 := h5.1
      rw [eq_div_iff h6.ne'] at h7
      exact mul_left_cancel₀ h0.ne' (by rw [h7, mul_one])
  · rintro (h | ⟨x', xs', e, hx, hs⟩)
    · have := h (.fin x) (by rw [h1]; simp)
      cases this
    have e' := hinj (h1.symm.trans e)
    injection e' with e1 e2
    subst e1 e2
    rw [h3 hx, hs, h1]
    simp

/-- Arrays with the same blocks are the same. -/
theorem eq_of_blocks {n k : Nat} {a b : List Flt} (ha : a.length = n * k) (hb : b.length = n * k)
    (h : ∀ i < n, block k a i = block k b i) : a = b := by
  rw [← chunk_flatMap n k a ha, ← chunk_flatMap n k b hb]
  apply List.flatMap_congr
  intro i hi
  exact h i (List.mem_range.mp hi)

theorem canon_block (b : Pattern) (hw : b.WF) (hd : b.isDict = false) (d : List Flt) : canon b (.arr ⟨b.shape, d⟩) = .arr ⟨b.shape, d⟩ := by
  cases b with
  | dict => simp [isDict] at hd
  | numeric c s lb ub dv fd =>
    simp only [Pattern.WF] at hw
    simp only [canon, Pattern.shape, Val.arr.injEq]
    exact atleast1d_of_ne hw.1
  | _ => rfl

theorem survives_iff (p : Pattern) (hw : p.WF) : ∀ v w : Val Flt, Closed p v → Settles p v w → (w = canon p v ↔ Survives p v) := by
  revert hw
  induction p using Pattern.ind
    (Q := fun es => WFEs es → ∀ vs ws : List (String × Val Flt), ClosedEs es vs → SettlesEs es vs ws → (ws = canonEs es vs ↔ SurvivesEs es vs)) with
  | hnum c s lb ub dv fd =>
    intro hw v w hc h
    cases v with
    | dict d => simp [Closed] at hc
    | arr a =>
      cases w with
      | dict d => simp [Settles] at h
      | arr b =>
        rw [Survives, ← forall₂_eq h.2 (by simp only [Pattern.WF] at hw; exact hw.2.2.2.2.1)]
        obtain ⟨sh, d⟩ := b
        have h1 := h.1
        simp only at h1
        subst h1
        have h2 := hc.2.1
        simp only [canon, Val.arr.injEq]
        constructor
        · intro e
          have := congrArg NDArray.data e
          rwa [atleast1d_data] at this
        · intro e
          have h3 : a.atleast1d = ⟨a.atleast1d.shape, a.atleast1d.data⟩ := rfl
          rw [h3, h2, atleast1d_data]
          rw [show d = a.data from e]
  | hsim k s dv fd =>
    intro hw v w hc h
    cases v with
    | dict d => simp [Closed] at hc
    | arr a =>
      cases w with
      | dict d => simp [Settles] at h
      | arr b =>
        have hrow : ∀ i < s.prod, (block k b.data i = block k a.data i ↔ _) := fun i hi => row_eq (h.2.2 i hi) (hc.2.2 i hi)
        simp only [canon, Survives, Val.arr.injEq]
        constructor
        · rintro rfl i hi
          exact (hrow i hi).mp rfl
        · intro hs
          obtain ⟨sa, da⟩ := a
          obtain ⟨sb, db⟩ := b
          have ha := hc.2.1
          have hb := h.2.1
          simp only at ha hb
          subst ha hb
          have l1 : da.length = s.prod * k := by have := hc.1; rw [NDArray.WF] at this; simpa using this
          have l2 : db.length = s.prod * k := by have := h.1; rw [NDArray.WF] at this; simpa using this
          rw [eq_of_blocks l2 l1 fun i hi => (hrow i hi).mpr (hs i hi)]
  | hpsd n lb dv fd =>
    intro hw v w hc h
    cases v with
    | dict d => simp [Closed] at hc
    | arr a =>
      simp only [Settles] at h
      subst h
      simp [canon, Survives]
  | harr s b fd ih =>
    intro hw v w hc h
    cases v with
    | dict d => simp [Closed] at hc
    | arr a =>
      cases w with
      | dict d => simp [Settles] at h
      | arr c =>
        have hrow : ∀ i < s.prod, (block b.shape.prod c.data i = block b.shape.prod a.data i ↔
            Survives b (.arr ⟨b.shape, block b.shape.prod a.data i⟩)) := fun i hi => by
          rw [← ih hw.2.2 _ _ (hc.2.2 i hi) (h.2.2 i hi), canon_block b hw.2.2 hw.2.1]
          simp
        simp only [canon, Survives, Val.arr.injEq]
        constructor
        · rintro rfl i hi
          exact (hrow i hi).mp rfl
        · intro hs
          obtain ⟨sa, da⟩ := a
          obtain ⟨sb, db⟩ := c
          have ha := hc.2.1
          have hb := h.2.1
          simp only at ha hb
          subst ha hb
          have l1 : da.length = s.prod * b.shape.prod := by have := hc.1; rw [NDArray.WF] at this; simpa using this
          have l2 : db.length = s.prod * b.shape.prod := by have := h.1; rw [NDArray.WF] at this; simpa using this
          rw [eq_of_blocks l2 l1 fun i hi => (hrow i hi).mpr (hs i hi)]
  | hdict es l fd ih =>
    intro hw v w hc h
    cases v with
    | arr d => simp [Closed] at hc
    | dict vs =>
      cases w with
      | arr d => simp [Settles] at h
      | dict ws =>
        simp only [canon, Survives, Val.dict.injEq]
        exact ih hw.2 vs ws hc h
  | hnil hw vs ws hc h => simp only [SettlesEs] at h; simp [canonEs, SurvivesEs, h]
  | hcons k p r ihp ihr hw vs ws hc h =>
    obtain ⟨v, w, ws', hl, rfl, h1, h2⟩ := h
    obtain ⟨⟨v', hl', hv⟩, hc⟩ := hc
    rw [hl] at hl'
    cases hl'
    simp only [canonEs, hl, SurvivesEs, Option.some.injEq, forall_eq', List.cons.injEq, Prod.mk.injEq, true_and]
    rw [ihp hw.1 v w hv h1, ihr hw.2.2 vs ws' hc h2]

theorem entries_again {lb ub : Flt} (hu : ub.NotNaN) : ∀ {l m : List Flt}, List.Forall₂ (EntrySettles lb ub) l m →
    (∀ x ∈ l, x = .nan ∨ (lb.le x = true ∧ x.le ub = true)) →
    (∀ x ∈ m, x = .nan ∨ (lb.le x = true ∧ x.le ub = true)) ∧ ¬ (lb.IsFin ∧ ub.IsFin ∧ ub ∈ m)
  | _, _, .nil, _ => by simp
  | x :: l, y :: m, .cons h h', hn => by
    obtain ⟨e, hne⟩ := entries_again hu h' fun z hz => hn z (by simp [hz])
    by_cases hx : lb.IsFin ∧ ub.IsFin ∧ x = ub
    · have h1 := h.1 hx
      subst h1
      refine ⟨fun z hz => ?_, ?_⟩
      · rcases List.mem_cons.mp hz with rfl | hz
        · exact .inl rfl
        · exact e z hz
      · rintro ⟨h3, h4, h5⟩
        rcases List.mem_cons.mp h5 with h5 | h5
        · rw [h5] at hu; simp at hu
        · exact hne ⟨h3, h4, h5⟩
    · have h1 := h.2 hx
      subst h1
      refine ⟨fun z hz => ?_, ?_⟩
      · rcases List.mem_cons.mp hz with rfl | hz
        · exact hn z (by simp)
        · exact e z hz
      · rintro ⟨h3, h4, h5⟩
        rcases List.mem_cons.mp h5 with h5 | h5
        · exact hx ⟨h3, h4, h5.symm⟩
        · exact hne ⟨h3, h4, h5⟩

theorem row_again {r q : List Flt} (h : RowSettles r q) (ha : RowAccepted r) :
    RowAccepted q ∧ ((∀ x ∈ q, x = .nan) ∨ ∃ (x : ℝ) (xs : List ℝ), q = (x :: xs).map .fin ∧ 0 < x ∧ (x :: xs).sum = 1) := by
  have hlost : ∀ n, 0 < n → RowAccepted (List.replicate n .nan) ∧ ((∀ x ∈ List.replicate n Flt.nan, x = .nan) ∨
      ∃ (x : ℝ) (xs : List ℝ), List.replicate n Flt.nan = (x :: xs).map .fin ∧ 0 < x ∧ (x :: xs).sum = 1) := by
    intro n hn
    have : ∀ x ∈ List.replicate n Flt.nan, x = .nan := fun x hx => List.eq_of_mem_replicate hx
    exact ⟨⟨fun x hx => .inl (this x hx), .inl (List.mem_replicate.mpr ⟨hn.ne', rfl⟩)⟩, .inl this⟩
  rcases h with ⟨hnan, rfl⟩ | ⟨x, xs, h1, h2, h3⟩
  · exact hlost _ (List.length_pos_of_mem hnan)
  have hy := real_row ha h1
  rcases (hy x (by simp)).eq_or_lt with h0 | h0
  · rw [h2 h0.symm]
    exact hlost _ (by rw [h1]; simp)
  · have hsum : 0 < (x :: xs).sum := by
      rw [List.sum_cons]
      have := List.sum_nonneg fun y hy' => hy y (List.mem_cons_of_mem x hy')
      linarith
    have hone : ((x :: xs).map fun y => y / (x :: xs).sum).sum = 1 := by
      have : ((x :: xs).map fun y => y / (x :: xs).sum).sum = (x :: xs).sum / (x :: xs).sum := by
        simp only [div_eq_mul_inv]
        rw [List.sum_map_mul_right]
        simp
      rw [this, div_self hsum.ne']
    rw [h3 h0]
    refine ⟨⟨fun z hz => .inr ?_, .inr ⟨_, rfl, by rw [hone]; norm_num⟩⟩,
      .inr ⟨x / (x :: xs).sum, xs.map fun y => y / (x :: xs).sum, rfl, div_pos h0 hsum, hone⟩⟩
    obtain ⟨z, hz', rfl⟩ := List.mem_map.mp hz
    obtain ⟨y, hy', rfl⟩ := List.mem_map.mp hz'
    have h0' : (0 : Flt) = Flt.fin 0 := by simp
    rw [h0', Flt.le_iff_not_lt (by simp) (by simp)]
    simp only [Flt.lt, decide_eq_false_iff_not, not_lt]
    exact div_nonneg (hy y hy') hsum.le

/-- What has settled stays where it is. -/
theorem settled (p : Pattern) (hw : p.WF) : ∀ v w : Val Flt, Closed p v → PosDefs p v → Settles p v w →
    Closed p w ∧ PosDefs p w ∧ Survives p w ∧ canon p w = w := by
  revert hw
  induction p using Pattern.ind
    (Q := fun es => es.keys.Nodup → WFEs es → ∀ vs ws : List (String × Val Flt), ClosedEs es vs → PosDefsEs es vs → SettlesEs es vs ws →
      ∀ us : List (String × Val Flt), (∀ k ∈ es.keys, us.lookup k = ws.lookup k) →
        ClosedEs es us ∧ PosDefsEs es us ∧ SurvivesEs es us ∧ canonEs es us = ws) with
  | hnum c s lb ub dv fd =>
    intro hw v w hc _ h
    cases v with
    | dict d => simp [Closed] at hc
    | arr a =>
      cases w with
      | dict d => simp [Settles] at h
      | arr b =>
        obtain ⟨sb, d⟩ := b
        obtain ⟨h1, h2⟩ := h
        simp only at h1
        rw [h1]
        clear h1
        obtain ⟨e, hs⟩ := entries_again (by simp only [Pattern.WF] at hw; exact hw.2.2.2.2.1) h2 hc.2.2
        have ha := atleast1d_wf hc.1
        rw [NDArray.WF, atleast1d_data, hc.2.1, h2.length_eq] at ha
        have he := canon_block _ hw rfl d
        have hsh : (⟨s, d⟩ : NDArray Flt).atleast1d = ⟨s, d⟩ := by simpa only [canon, Val.arr.injEq, Pattern.shape] using he
        exact ⟨⟨ha, by rw [hsh], e⟩, trivial, hs, he⟩
  | hsim k s dv fd =>
    intro hw v w hc _ h
    cases v with
    | dict d => simp [Closed] at hc
    | arr a =>
      cases w with
      | dict d => simp [Settles] at h
      | arr b =>
        exact ⟨⟨h.1, h.2.1, fun i hi => (row_again (h.2.2 i hi) (hc.2.2 i hi)).1⟩, trivial,
          fun i hi => (row_again (h.2.2 i hi) (hc.2.2 i hi)).2, rfl⟩
  | hpsd n lb dv fd =>
    intro hw v w hc hp h
    cases v with
    | dict d => simp [Closed] at hc
    | arr a =>
      simp only [Settles] at h
      subst h
      exact ⟨hc, hp, trivial, rfl⟩
  | harr s b fd ih =>
    intro hw v w hc hp h
    cases v with
    | dict d => simp [Closed] at hc
    | arr a =>
      cases w with
      | dict d => simp [Settles] at h
      | arr c =>
        have hrow := fun i hi => ih hw.2.2 _ _ (hc.2.2 i hi) (hp i hi) (h.2.2 i hi)
        exact ⟨⟨h.1, h.2.1, fun i hi => (hrow i hi).1⟩, fun i hi => (hrow i hi).2.1, fun i hi => (hrow i hi).2.2.1, rfl⟩
  | hdict es l fd ih =>
    intro hw v w hc hp h
    cases v with
    | arr d => simp [Closed] at hc
    | dict vs =>
      cases w with
      | arr d => simp [Settles] at h
      | dict ws =>
        obtain ⟨h1, h2, h3, h4⟩ := ih hw.1 hw.2 vs ws hc hp h ws fun _ _ => rfl
        exact ⟨h1, h2, h3, by rw [canon, h4]⟩
  | hnil hnd hw vs ws hc hp h us hu =>
    simp only [SettlesEs] at h
    exact ⟨trivial, trivial, trivial, by rw [h]; rfl⟩
  | hcons k p r ihp ihr hnd hw vs ws hc hp h us hu =>
    obtain ⟨v, w, ws', hl, rfl, h1, h2⟩ := h
    obtain ⟨⟨v', hl', hv⟩, hc⟩ := hc
    rw [hl] at hl'
    cases hl'
    obtain ⟨a1, a2, a3, a4⟩ := ihp hw.1 v w hv (hp.1 v hl) h1
    have hk : us.lookup k = some w := by
      rw [hu k (by simp [Entries.keys, Entries.toList])]
      simp
    obtain ⟨b1, b2, b3, b4⟩ := ihr (List.nodup_cons.mp hnd).2 hw.2.2 vs ws' hc hp.2 h2 us fun k' hk' => by
      rw [hu k' (by simp only [Entries.keys, Entries.toList, List.map_cons, List.mem_cons]; exact .inr hk'), List.lookup_cons]
      have : (k' == k) = false := by
        rw [beq_eq_false_iff_ne]
        rintro rfl
        exact (List.nodup_cons.mp hnd).1 hk'
      rw [this]
    refine ⟨⟨⟨w, hk, a1⟩, b1⟩, ⟨fun u hu' => ?_, b2⟩, ⟨fun u hu' => ?_, b3⟩, ?_⟩
    · rw [hk] at hu'; cases hu'; exact a2
    · rw [hk] at hu'; cases hu'; exact a3
    · simp only [canonEs, hk, a4, b4]

/-- **C105, which values are meant.**  They are the values that `validate_folded(v, validate_value=True)` accepts, except that matrices must not have
infinite entries. -/
theorem C105_closed {p : Pattern} (hp : Built p) (hf : p.FiniteLb) {v : Val Flt} (hv : v.WF) :
    (∃ msg, p.validate v (some true) = .ok (true, msg)) ∧ FiniteMatrices p v ↔ Closed p v :=
  ⟨fun h => closed_of_accepted p hp.wf hf v hv h.2 ((C107_validate hp hf hv).mp h.1),
    fun h => ⟨acc_of_closed p hp.wf hf v (some true) h, finite_of_closed p v h⟩⟩

/-- **C105.**  For every pattern without empty containers, every value that satisfies the documented constraints with the bounds included, and
every `validate_value`: if all matrices less `diag_lb` on the diagonal are positive definite, the value flattens freely, the flat vector folds back,
and the result is the value with three changes.  Entries on the upper one of two finite bounds become NaN.  Simplexes with a NaN or with a zero in
front become NaN altogether.  All other simplexes are divided by their sums. -/
theorem C105_round_trip {p : Pattern} (hp : Built p) (hf : p.FiniteLb) (hne : p.NoEmpty) {v : Val Flt} (hc : Closed p v) (hd : PosDefs p v)
    (vv vv' : Option Bool) : ∃ x w, p.flatten v (some true) vv = .ok x ∧ p.fold x (some true) vv' = .ok w ∧ Settles p v w := by
  obtain ⟨d, _, h2, w, h3, h4⟩ := (settle_main p hp.wf hf v hc hne).1 hd
  exact ⟨vec d, w, by rw [flatten_true]; exact h2 vv, by rw [fold_true]; exact h3, h4⟩

/-- **C105, singular matrices.**  If one of the matrices is not positive definite after the subtraction, anywhere in the tree, flattening raises a
linear algebra error. -/
theorem C105_singular {p : Pattern} (hp : Built p) (hf : p.FiniteLb) (hne : p.NoEmpty) {v : Val Flt} (hc : Closed p v) (hd : ¬ PosDefs p v)
    (vv : Option Bool) : p.flatten v (some true) vv = .error .linAlgError := by
  rw [flatten_true]
  exact (settle_main p hp.wf hf v hc hne).2 hd vv

/-- **C105, survivors.**  The round trip returns the value itself (in the pattern's order, scalars as arrays) exactly when no entry is on the upper
one of two finite bounds and every simplex is all NaN or has a positive first entry and a sum of exactly one. -/
theorem C105_survives {p : Pattern} (hp : Built p) (hf : p.FiniteLb) (hne : p.NoEmpty) {v : Val Flt} (hc : Closed p v) (hd : PosDefs p v)
    (vv vv' : Option Bool) :
    (p.flatten v (some true) vv >>= fun x => p.fold x (some true) vv') = .ok (canon p v) ↔ Survives p v := by
  obtain ⟨x, w, h1, h2, h3⟩ := C105_round_trip hp hf hne hc hd vv vv'
  rw [← survives_iff p hp.wf v w hc h3, h1]
  simp only [bind, Except.bind, h2, Except.ok.injEq]

/-- **C105, once is enough.**  What a round trip returns is accepted by validation again, and every further round trip returns it unchanged. -/
theorem C105_again {p : Pattern} (hp : Built p) (hf : p.FiniteLb) (hne : p.NoEmpty) {v : Val Flt} (hc : Closed p v)
    {vv vv' : Option Bool} {w : Val Flt} (h : (p.flatten v (some true) vv >>= fun x => p.fold x (some true) vv') = .ok w)
    (uu uu' : Option Bool) : Closed p w ∧ (p.flatten w (some true) uu >>= fun x => p.fold x (some true) uu') = .ok w := by
  have hd : PosDefs p v := by
    by_contra hd
    rw [C105_singular hp hf hne hc hd vv] at h
    cases h
  obtain ⟨x, w', h1, h2, h3⟩ := C105_round_trip hp hf hne hc hd vv vv'
  rw [h1] at h
  simp only [bind, Except.bind, h2, Except.ok.injEq] at h
  subst h
  obtain ⟨a1, a2, a3, a4⟩ := settled p hp.wf v w' hc hd h3
  have := (C105_survives hp hf hne a1 a2 uu uu').mpr a3
  rw [a4] at this
  exact ⟨a1, this⟩

/-! ### Examples -/

/-- Two numbers between zero and one, two simplexes and a matrix. -/
noncomputable def exClosed : Pattern :=
  .dict (.cons "u" (.numeric .vector [2] (.int 0) (.int 1) true none)
    (.cons "a" (.array [2] (.simplex 2 [] true none) none) (.cons "m" (.psd 2 (.int 0) true none) .nil))) false none

theorem exClosed_built : Built exClosed := WF.built _ (by
  simp [exClosed, Pattern.WF, Pattern.WFEs, lock, isDict, Entries.keys, Entries.toList, PyNum.toFlt, Flt.NotNaN, Flt.lt])

/-- A value of it. -/
noncomputable def exClosedVal (u1 u2 a1 a2 a3 a4 d1 d2 : ℝ) : Val Flt :=
  .dict [("u", .arr ⟨[2], [.fin u1, .fin u2]⟩), ("a", .arr ⟨[2, 2], [.fin a1, .fin a2, .fin a3, .fin a4]⟩),
    ("m", .arr ⟨[2, 2], [.fin d1, .fin 0, .fin 0, .fin d2]⟩)]

theorem exClosed_diag (d1 d2 : ℝ) : ([.fin d1, .fin 0, .fin 0, .fin d2] : List Flt) = matData (Matrix.diagonal ![d1, d2]) := by
  simp [matData, Matrix.diagonal, List.ofFn_succ]

theorem exClosed_row {x y : ℝ} (hx : 0 ≤ x) (hy : 0 ≤ y) : ∀ z ∈ ([.fin x, .fin y] : List Flt), z = .nan ∨ Flt.le 0 z = true := by
  have h0 : (0 : Flt) = Flt.fin 0 := by simp
  intro z hz
  simp only [List.mem_cons, List.not_mem_nil, or_false] at hz
  right
  rcases hz with rfl | rfl <;> rw [h0, Flt.le_iff_not_lt (by simp) (by simp)] <;> simpa [Flt.lt]

theorem exClosed_closed {u1 u2 a1 a2 a3 a4 d1 d2 : ℝ} (h1 : 0 ≤ u1 ∧ u1 ≤ 1) (h2 : 0 ≤ u2 ∧ u2 ≤ 1) (h3 : 0 ≤ a1 ∧ 0 ≤ a2 ∧ a1 + a2 = 1)
    (h4 : 0 ≤ a3 ∧ 0 ≤ a4 ∧ a3 + a4 = 1) (h5 : 0 ≤ d1 ∧ 0 ≤ d2) : Closed exClosed (exClosedVal u1 u2 a1 a2 a3 a4 d1 d2) := by
  refine ⟨⟨_, rfl, rfl, rfl, ?_⟩, ⟨_, rfl, rfl, rfl, ?_⟩, ⟨_, rfl, ?_⟩, trivial⟩
  · intro x hx
    simp only [List.mem_cons, List.not_mem_nil, or_false] at hx
    right
    rcases hx with rfl | rfl
    · rw [Flt.le_iff_not_lt (by simp [PyNum.toFlt]) (by simp), Flt.le_iff_not_lt (by simp) (by simp [PyNum.toFlt])]
      simpa [PyNum.toFlt, Flt.lt] using h1
    · rw [Flt.le_iff_not_lt (by simp [PyNum.toFlt]) (by simp), Flt.le_iff_not_lt (by simp) (by simp [PyNum.toFlt])]
      simpa [PyNum.toFlt, Flt.lt] using h2
  · intro i hi
    have : i = 0 ∨ i = 1 := by simp at hi; omega
    rcases this with rfl | rfl
    · refine ⟨rfl, rfl, fun j hj => ?_⟩
      have : j = 0 := by simp at hj; exact hj
      subst this
      exact ⟨exClosed_row h3.1 h3.2.1, .inr ⟨[a1, a2], rfl, by simp [h3.2.2]⟩⟩
    · refine ⟨rfl, rfl, fun j hj => ?_⟩
      have : j = 0 := by simp at hj; exact hj
      subst this
      exact ⟨exClosed_row h4.1 h4.2.1, .inr ⟨[a3, a4], rfl, by simp [h4.2.2]⟩⟩
  · refine ⟨Matrix.diagonal ![d1, d2], by rw [exClosed_diag], Matrix.isSymm_diagonal _, fun i => ?_⟩
    fin_cases i
    · simpa [PyNum.toFlt] using h5.1
    · simpa [PyNum.toFlt] using h5.2

theorem exClosed_posDefs {u1 u2 a1 a2 a3 a4 d1 d2 : ℝ} (h1 : 0 < d1) (h2 : 0 < d2) : PosDefs exClosed (exClosedVal u1 u2 a1 a2 a3 a4 d1 d2) := by
  refine ⟨fun v hv => ?_, fun v hv => ?_, fun v hv => ?_, trivial⟩
  · cases hv; trivial
  · cases hv; exact fun _ _ => trivial
  · cases hv
    refine ⟨Matrix.diagonal ![d1, d2], by rw [exClosed_diag], ?_⟩
    have : (PyNum.int 0).toFlt.toReal = 0 := by simp [PyNum.toFlt]
    rw [this, zero_smul, sub_zero]
    rw [Matrix.posDef_diagonal_iff]
    intro i
    fin_cases i
    · exact h1
    · exact h2

/-- C105 is not vacuous: a value on several bounds. -/
example : Built exClosed ∧ exClosed.FiniteLb ∧ exClosed.NoEmpty ∧ Closed exClosed (exClosedVal 0 1 0 1 (1 / 2) (1 / 2) 1 2) ∧
    PosDefs exClosed (exClosedVal 0 1 0 1 (1 / 2) (1 / 2) 1 2) :=
  ⟨exClosed_built, by simp [exClosed, FiniteLb, FiniteLbEs, PyNum.toFlt], by simp [exClosed, NoEmpty, NoEmptyEs],
    exClosed_closed (by norm_num) (by norm_num) (by norm_num) (by norm_num) (by norm_num), exClosed_posDefs (by norm_num) (by norm_num)⟩

/-- What becomes of it: the entry at one and the first simplex are lost. -/
example {w : Val Flt} (h : Settles exClosed (exClosedVal 0 1 0 1 (1 / 2) (1 / 2) 1 2) w) :
    w = .dict [("u", .arr ⟨[2], [.fin 0, .nan]⟩), ("a", .arr ⟨[2, 2], [.nan, .nan, .fin (1 / 2), .fin (1 / 2)]⟩),
      ("m", .arr ⟨[2, 2], [.fin 1, .fin 0, .fin 0, .fin 2]⟩)] := by
  cases w with
  | arr a => simp [exClosed, exClosedVal, Settles] at h
  | dict ws =>
  obtain ⟨v1, w1, ws1, l1, rfl, h1, v2, w2, ws2, l2, rfl, h2, v3, w3, ws3, l3, rfl, h3, rfl⟩ := h
  cases l1; cases l2; cases l3
  cases h3
  cases w1 with
  | dict d => simp [Settles] at h1
  | arr b1 =>
  cases w2 with
  | dict d => simp [Settles] at h2
  | arr b2 =>
  obtain ⟨s1, d1⟩ := b1
  obtain ⟨s2, d2⟩ := b2
  obtain ⟨e1, g1⟩ := h1
  obtain ⟨f2, e2, g2⟩ := h2
  simp only [Pattern.shape] at e1 e2
  subst e1 e2
  cases g1 with | cons g g1 =>
  cases g1 with | cons g' g1 =>
  cases g1
  have k1 := g.2 (by simp [PyNum.toFlt])
  have k2 := g'.1 (by simp [PyNum.toFlt])
  subst k1 k2
  have f2 : d2.length = 4 := f2
  match d2, f2 with
  | [y1, y2, y3, y4], _ =>
  obtain ⟨_, _, r0⟩ := g2 0 (by simp)
  obtain ⟨_, _, r1⟩ := g2 1 (by simp)
  rcases r0 0 (by simp) with ⟨hnan, _⟩ | ⟨x, xs, q1, q2, _⟩
  · have hnan : Flt.nan ∈ ([.fin 0, .fin 1] : List Flt) := hnan
    simp at hnan
  rcases r1 0 (by simp) with ⟨hnan, _⟩ | ⟨x', xs', q1', _, q2'⟩
  · have hnan : Flt.nan ∈ ([.fin (1 / 2), .fin (1 / 2)] : List Flt) := hnan
    simp at hnan
  have t1 : (x :: xs) = [0, 1] := by
    have : Function.Injective (List.map Flt.fin) := List.map_injective_iff.mpr fun a b h => by cases h; rfl
    exact this (q1.symm.trans rfl)
  have t2 : (x' :: xs') = [1 / 2, 1 / 2] := by
    have : Function.Injective (List.map Flt.fin) := List.map_injective_iff.mpr fun a b h => by cases h; rfl
    exact this (q1'.symm.trans rfl)
  injection t1 with t1 t1'
  injection t2 with t2 t2'
  have q2 : [y1, y2] = [.nan, .nan] := q2 t1
  have q2' := q2' (by rw [t2]; norm_num)
  rw [t2, t2'] at q2'
  have q2' : [y3, y4] = [.fin (1 / 2), .fin (1 / 2)] := by
    norm_num at q2'
    exact q2'
  injection q2 with z1 z
  injection z with z2 _
  injection q2' with z3 z
  injection z with z4 _
  rw [z1, z2, z3, z4]
  rfl

/-- A value on other bounds survives. -/
example : Survives exClosed (exClosedVal 0 (1 / 2) 1 0 (1 / 2) (1 / 2) 1 2) ∧
    Closed exClosed (exClosedVal 0 (1 / 2) 1 0 (1 / 2) (1 / 2) 1 2) ∧ PosDefs exClosed (exClosedVal 0 (1 / 2) 1 0 (1 / 2) (1 / 2) 1 2) := by
  refine ⟨⟨fun v hv => ?_, fun v hv => ?_, fun v hv => ?_, trivial⟩,
    exClosed_closed (by norm_num) (by norm_num) (by norm_num) (by norm_num) (by norm_num), exClosed_posDefs (by norm_num) (by norm_num)⟩
  · cases hv
    simp [Survives, PyNum.toFlt]
  · cases hv
    intro i hi j hj
    have : j = 0 := by simp at hj; exact hj
    subst this
    have : i = 0 ∨ i = 1 := by simp at hi; omega
    rcases this with rfl | rfl
    · exact .inr ⟨1, [0], rfl, by norm_num, by norm_num⟩
    · exact .inr ⟨1 / 2, [1 / 2], rfl, by norm_num, by norm_num⟩
  · cases hv; trivial

/-- A singular matrix: accepted, but not flattened. -/
example : Closed exClosed (exClosedVal 0 0 1 0 1 0 0 1) ∧ ¬ PosDefs exClosed (exClosedVal 0 0 1 0 1 0 0 1) := by
  refine ⟨exClosed_closed (by norm_num) (by norm_num) (by norm_num) (by norm_num) (by norm_num), fun h => ?_⟩
  obtain ⟨M, h1, h2⟩ := h.2.2.1 _ rfl
  have h3 := congrArg NDArray.data h1
  simp only at h3
  rw [exClosed_diag] at h3
  have := matData_inj h3
  subst this
  have := h2.diag_pos (i := 0)
  simp [PyNum.toFlt] at this

end Paragami
