import Verif.Proofs.User
import Verif.Spec.Valid
import Verif.Props.RoundTrip

/-! # C12–C13: what `validate_folded` decides -/

set_option linter.unusedSimpArgs false

namespace Paragami
open Pattern NDArray

theorem Flt.le_iff_not_lt {x y : Flt} (hx : x.NotNaN) (hy : y.NotNaN) : x.le y = true ↔ y.lt x = false := by
  cases x <;> cases y <;> simp_all [Flt.le, Flt.lt, Flt.eq]
  next a b => exact ⟨fun h => by rcases h with h | h <;> linarith, fun h => lt_or_eq_of_le h⟩

theorem Flt.eq_iff {x y : Flt} (hx : x.NotNaN) : x.eq y = true ↔ x = y := by
  cases x <;> cases y <;> simp_all [Flt.eq]

/-- A sum of non-negative numbers (no NaN) is not NaN. -/
theorem Flt.sum_notNaN {l : List Flt} (h1 : ∀ x ∈ l, x.NotNaN) (h2 : ∀ x ∈ l, x.lt 0 = false) : (Flt.sum l).NotNaN := by
  have key : ∀ (l : List Flt) (c : Flt), c.NotNaN → c.lt 0 = false → (∀ x ∈ l, x.NotNaN) → (∀ x ∈ l, x.lt 0 = false) →
      (l.foldl (· + ·) c).NotNaN := by
    intro l
    induction l with
    | nil => intro c hc _ _ _; exact hc
    | cons a l ih =>
      intro c hc hc0 h1 h2
      have ha1 := h1 a (by simp)
      have ha2 := h2 a (by simp)
      have hn : (c + a).NotNaN ∧ (c + a).lt 0 = false := by
        have e1 : ∀ r : ℝ, Flt.fin r + Flt.pinf = Flt.pinf := fun _ => rfl
        have e2 : ∀ r : ℝ, Flt.pinf + Flt.fin r = Flt.pinf := fun _ => rfl
        have e3 : Flt.pinf + Flt.pinf = Flt.pinf := rfl
        cases c <;> cases a <;> simp_all [Flt.lt]; linarith
      exact ih (c + a) hn.1 hn.2 (fun x hx => h1 x (by simp [hx])) (fun x hx => h2 x (by simp [hx]))
  exact key l 0 (by simp) (by simp) h1 h2

theorem Flt.abs_sub_one_notNaN {x : Flt} (h : x.NotNaN) : (x - 1).abs.NotNaN := by
  have e1 : Flt.pinf - Flt.fin 1 = Flt.pinf := rfl
  have e2 : Flt.ninf - Flt.fin 1 = Flt.ninf := rfl
  cases x <;> simp_all [Flt.abs]

theorem entry_eq {n : Nat} {d : List Flt} (hd : d.length = n * n) {i j : Nat} (hi : i < n) (hj : j < n) :
    d[i * n + j]? = some (entry n d i j) := by
  have h : i * n + j < d.length := by
    rw [hd]
    calc i * n + j < i * n + n := by omega
      _ = (i + 1) * n := by ring
      _ ≤ n * n := Nat.mul_le_mul_right _ hi
  simp [entry, List.getD, List.getElem?_eq_getElem h, h]

theorem noNaN_lookup {vs : List (String × Val Flt)} (h : Spec.NoNaNEs vs) {k v} (hl : vs.lookup k = some v) :
    Spec.NoNaN v := by
  induction vs with
  | nil => simp at hl
  | cons kv vs ih =>
    obtain ⟨k', v'⟩ := kv
    simp only [Spec.NoNaNEs] at h
    by_cases hk : k = k'
    · subst hk; simp [List.lookup] at hl; subst hl; exact h.1
    · rw [lookup_cons_ne hk] at hl; exact ih h.2 hl

theorem mem_chunk {α : Type _} {k i : Nat} {l : List α} {x : α} (h : x ∈ chunk k l i) : x ∈ l :=
  List.mem_of_mem_drop (List.mem_of_mem_take h)

theorem valid_iff_acc (p : Pattern) (hw : p.WF) (hf : p.FiniteLb) : ∀ v : Val Flt, v.WF → Spec.NoNaN v →
    (Acc p v (some true) ↔ Spec.Valid p v) := by
  revert hw hf
  induction p using Pattern.ind
    (Q := fun es => WFEs es → FiniteLbEs es → ∀ vs : List (String × Val Flt), Val.WFEs vs → Spec.NoNaNEs vs →
      (AccEs es vs (some true) ↔ Spec.ValidEs es vs)) with
  | hnum c s lb ub dv fd =>
    intro hw _ v hv hn
    simp only [Pattern.WF] at hw
    rw [acc_numeric]
    cases v with
    | dict d => simp [Spec.Valid]
    | arr a =>
      simp only [Val.arr.injEq, exists_eq_left', Option.getD_some, forall_const, Spec.Valid, Elem.toFlt, id, Flt.gt]
      simp only [Spec.NoNaN] at hn
      constructor
      · rintro ⟨h1, h2⟩
        refine ⟨h1, fun x hx => ?_⟩
        rw [Flt.le_iff_not_lt hw.2.2.2.1 (hn x hx), Flt.le_iff_not_lt (hn x hx) hw.2.2.2.2.1]
        exact h2 x hx
      · rintro ⟨h1, h2⟩
        refine ⟨h1, fun x hx => ?_⟩
        have := h2 x hx
        rwa [Flt.le_iff_not_lt hw.2.2.2.1 (hn x hx), Flt.le_iff_not_lt (hn x hx) hw.2.2.2.2.1] at this
  | hsim k s dv fd =>
    intro hw _ v hv hn
    rw [acc_simplex]
    cases v with
    | dict d => simp [Spec.Valid]
    | arr a =>
      simp only [Val.arr.injEq, exists_eq_left', Option.getD_some, forall_const, Spec.Valid, Flt.gt]
      simp only [Spec.NoNaN] at hn
      have e : ∀ l : List Flt, l.map (Elem.toFlt : Flt → Flt) = l := fun l => by
        show l.map id = l; simp
      simp only [e, Spec.block]
      apply and_congr_right
      intro hs
      have h0 : (∀ x ∈ a.data, (Elem.toFlt x : Flt).lt 0 = false) ↔ ∀ x ∈ a.data, Flt.le 0 x = true := by
        apply forall₂_congr
        intro x hx
        rw [Flt.le_iff_not_lt (by simp) (hn x hx)]; rfl
      rw [h0]
      apply and_congr_right
      intro h1
      apply forall₂_congr
      intro i hi
      change _ ↔ (Flt.sum (chunk k a.data i) - 1).abs.le _ = true
      rw [Flt.le_iff_not_lt ?_ (by simp)]
      apply Flt.abs_sub_one_notNaN
      apply Flt.sum_notNaN
      · exact fun x hx => hn x (mem_chunk hx)
      · intro x hx
        have := h1 x (mem_chunk hx)
        rwa [Flt.le_iff_not_lt (by simp) (hn x (mem_chunk hx))] at this
  | hpsd n lb dv fd =>
    intro hw hf v hv hn
    simp only [FiniteLb] at hf
    obtain ⟨l, hl⟩ := Flt.isFin_iff.mp hf
    rw [acc_psd]
    cases v with
    | dict d => simp [Spec.Valid]
    | arr a =>
      simp only [Val.arr.injEq, exists_eq_left', Option.getD_some, forall_const, Spec.Valid]
      simp only [Spec.NoNaN] at hn
      have e : ∀ l : List Flt, l.map (Elem.toFlt : Flt → Flt) = l := fun l => by
        show l.map id = l; simp
      simp only [e]
      apply and_congr_right
      intro hs
      have hd : a.data.length = n * n := by
        have : a.WF := hv
        rw [this, hs]; simp
      have hnn : ∀ i < n, ∀ j < n, (entry n a.data i j).NotNaN := by
        intro i hi j hj
        exact hn _ (List.mem_of_getElem? (entry_eq hd hi hj))
      apply and_congr
      · apply forall₂_congr
        intro i hi
        rw [entry_eq hd hi hi]
        simp only [Option.some.injEq, exists_eq_left']
        rw [hl, Flt.le_iff_not_lt (by simp) (hnn i hi i hi)]
      · apply forall₂_congr
        intro i hi
        apply forall₂_congr
        intro j hj
        rw [Flt.eq_iff (hnn j hj i hi), entry_eq hd hi hj, entry_eq hd hj hi, Option.some.injEq]
        exact eq_comm
  | harr s b fd ih =>
    intro hw hf v hv hn
    simp only [Pattern.WF] at hw
    simp only [FiniteLb] at hf
    rw [acc_array]
    cases v with
    | dict d => simp [Spec.Valid]
    | arr a =>
      simp only [Val.arr.injEq, exists_eq_left', Spec.Valid]
      simp only [Spec.NoNaN] at hn
      apply and_congr_right
      intro hs
      apply forall₂_congr
      intro i hi
      exact ih hw.2.2 hf _ (chunk_wf hv hs hi) (fun x hx => hn x (mem_chunk hx))
  | hdict es l fd ih =>
    intro hw hf v hv hn
    simp only [Pattern.WF] at hw
    simp only [FiniteLb] at hf
    rw [acc_dict]
    cases v with
    | arr d => simp [Spec.Valid]
    | dict vs =>
      simp only [Val.dict.injEq, exists_eq_left', Spec.Valid]
      exact ih hw.2 hf vs hv hn
  | hnil => simp [AccEs, Spec.ValidEs]
  | hcons k p r ihp ihr hw hf vs hv hn =>
    simp only [WFEs] at hw
    simp only [FiniteLbEs] at hf
    simp only [AccEs, Spec.ValidEs]
    apply and_congr
    · apply exists_congr
      intro v
      apply and_congr_right
      intro hl
      exact ihp hw.1 hf.1 v (WFEs_lookup hv hl) (noNaN_lookup hn hl)
    · exact ihr hw.2.2 hf.2 vs hv hn

/-- **C12.**  For every pattern and every value without NaN, `validate_folded(v, validate_value=True)` returns true
exactly when `v` satisfies the documented constraints. -/
theorem C12_validate_true_iff {p : Pattern} (hp : Built p) (hf : p.FiniteLb) {v : Val Flt} (hv : v.WF)
    (hn : Spec.NoNaN v) : (∃ msg, p.validate v (some true) = .ok (true, msg)) ↔ Spec.Valid p v :=
  valid_iff_acc p hp.wf hf v hv hn

theorem shapeOk_of_shape {α : Type} {p : Pattern} (hw : p.WF) (hd : p.isDict = false) (d : List α) :
    Spec.ShapeOk p (.arr (⟨p.shape, d⟩ : NDArray α)) := by
  cases p with
  | numeric c s lb ub dv fd => simp only [Spec.ShapeOk]; rw [atleast1d_of_ne (by exact hw.1)]; rfl
  | dict => simp [isDict] at hd
  | _ => simp only [Spec.ShapeOk]; rfl

theorem shapeOk_iff_acc {α : Type} [Elem α] (p : Pattern) (hw : p.WF) :
    ∀ v : Val α, (Acc p v (some false) ↔ Spec.ShapeOk p v) := by
  revert hw
  induction p using Pattern.ind
    (Q := fun es => WFEs es → ∀ vs : List (String × Val α), (AccEs es vs (some false) ↔ Spec.ShapeOkEs es vs)) with
  | hnum c s lb ub dv fd => intro _ v; rw [acc_numeric]; cases v <;> simp [Spec.ShapeOk]
  | hsim k s dv fd => intro _ v; rw [acc_simplex]; cases v <;> simp [Spec.ShapeOk]
  | hpsd n lb dv fd => intro _ v; rw [acc_psd]; cases v <;> simp [Spec.ShapeOk]
  | harr s b fd ih =>
    intro hw v
    simp only [Pattern.WF] at hw
    rw [acc_array]
    cases v with
    | dict d => simp [Spec.ShapeOk]
    | arr a =>
      simp only [Val.arr.injEq, exists_eq_left', Spec.ShapeOk]
      exact and_iff_left_of_imp fun _ i _ => (ih hw.2.2 _).mpr (shapeOk_of_shape hw.2.2 hw.2.1 _)
  | hdict es l fd ih =>
    intro hw v
    simp only [Pattern.WF] at hw
    rw [acc_dict]
    cases v with
    | arr d => simp [Spec.ShapeOk]
    | dict vs => simp only [Val.dict.injEq, exists_eq_left', Spec.ShapeOk]; exact ih hw.2 vs
  | hnil => simp [AccEs, Spec.ShapeOkEs]
  | hcons k p r ihp ihr hw vs =>
    simp only [WFEs] at hw
    simp only [AccEs, Spec.ShapeOkEs, ihp hw.1, ihr hw.2.2]

/-- **C12, shapes.**  With `validate_value=False` exactly the structure and the shapes are checked (NaN or not). -/
theorem C12_shape_only_iff {p : Pattern} (hp : Built p) (v : Val Flt) :
    (∃ msg, p.validate v (some false) = .ok (true, msg)) ↔ Spec.ShapeOk p v :=
  shapeOk_iff_acc p hp.wf v

/-- C12 is not vacuous: the example pattern has a NaN-free valid value, and an invalid one of the right shapes. -/
example : (∃ v, v.WF ∧ Spec.NoNaN v ∧ Spec.Valid (.numeric .vector [2] (.int 0) (.int 3) true none) v) ∧
    (∃ v, v.WF ∧ Spec.NoNaN v ∧ Spec.ShapeOk (.numeric .vector [2] (.int 0) (.int 3) true none) v ∧
      ¬ Spec.Valid (.numeric .vector [2] (.int 0) (.int 3) true none) v) := by
  refine ⟨⟨.arr ⟨[2], [.fin 0, .fin 1]⟩, rfl, ?_, ?_⟩, ⟨.arr ⟨[2], [.fin 0, .fin 4]⟩, rfl, ?_, ?_, ?_⟩⟩
  · simp [Spec.NoNaN]
  · simp only [Spec.Valid, atleast1d, PyNum.toFlt, true_and]; simp
  · simp [Spec.NoNaN]
  · simp [Spec.ShapeOk, atleast1d]
  · simp only [Spec.Valid, atleast1d, PyNum.toFlt, true_and]; simp; norm_num

/-- **C12, default.**  When `validate_value` is not given, the leaf patterns use the stored `default_validate`. -/
theorem C12_default_validate (v : Val Flt) :
    (∀ c s lb ub dv fd, (Pattern.numeric c s lb ub dv fd).validate v none =
      (Pattern.numeric c s lb ub dv fd).validate v (some dv)) ∧
    (∀ k s dv fd, (Pattern.simplex k s dv fd).validate v none = (Pattern.simplex k s dv fd).validate v (some dv)) ∧
    (∀ n lb dv fd, (Pattern.psd n lb dv fd).validate v none = (Pattern.psd n lb dv fd).validate v (some dv)) := by
  refine ⟨fun c s lb ub dv fd => ?_, fun k s dv fd => ?_, fun n lb dv fd => ?_⟩
  · simp only [Pattern.validate, Numeric.validate, Option.getD]
  · simp only [Pattern.validate, Simplex.validate, Option.getD]
  · simp only [Pattern.validate, PSD.validate, Option.getD]

/-! ### C13: NaN -/

/-- The full claim of C13: a value containing NaN is reported invalid. -/
def Spec.C13Claim : Prop :=
  ∀ p, Built p → ∀ a : NDArray Flt, a.WF → Flt.nan ∈ a.data → ∀ msg, p.validate (.arr a) (some true) ≠ .ok (true, msg)

/-- **C13, partial.**  A matrix containing NaN anywhere is rejected by a PSD pattern under value checking.  (Missing,
because false: numeric and simplex patterns.) -/
theorem C13_psd_rejects_nan_partial {n lb dv fd} {a : NDArray Flt} (ha : a.WF) (hn : Flt.nan ∈ a.data) (msg : String) :
    (Pattern.psd n lb dv fd).validate (.arr a) (some true) ≠ .ok (true, msg) := by
  intro h
  have hacc : Acc (.psd n lb dv fd) (.arr a) (some true) := ⟨msg, h⟩
  rw [acc_psd] at hacc
  obtain ⟨_, e, hs, h2⟩ := hacc
  cases e
  obtain ⟨_, h3⟩ := h2 rfl
  have e : a.data.map (Elem.toFlt : Flt → Flt) = a.data := by show a.data.map id = _; simp
  rw [e] at h3
  have hd : a.data.length = n * n := by rw [ha, hs]; simp
  obtain ⟨m, hm, hme⟩ := List.getElem_of_mem hn
  rw [hd] at hm
  have hpos : 0 < n := by rcases Nat.eq_zero_or_pos n with h | h; · subst h; simp at hm
                          · exact h
  have hi : m / n < n := Nat.div_lt_of_lt_mul hm
  have hj : m % n < n := Nat.mod_lt _ hpos
  have h4 := h3 (m % n) hj (m / n) hi
  have h5 : entry n a.data (m / n) (m % n) = .nan := by
    have : a.data[m / n * n + m % n]? = some (entry n a.data (m / n) (m % n)) := entry_eq hd hi hj
    rw [Nat.div_add_mod' m n, List.getElem?_eq_getElem (by rw [hd]; exact hm), hme] at this
    exact (Option.some.inj this).symm
  rw [h5] at h4
  simp [Flt.eq] at h4

/-- C13_psd_rejects_nan_partial is not vacuous. -/
example : (⟨[2, 2], [.fin 1, .nan, .nan, .fin 1]⟩ : NDArray Flt).WF ∧
    Flt.nan ∈ (⟨[2, 2], [.fin 1, .nan, .nan, .fin 1]⟩ : NDArray Flt).data := ⟨rfl, by simp⟩

/-- **C13, the failure for numeric patterns.**  Replacing any entries of a valid array by NaN keeps it valid: an array
whose every entry is NaN or within the bounds is accepted. -/
theorem C13_numeric_accepts_nan {c s lb ub dv fd} (hw : (Pattern.numeric c s lb ub dv fd).WF) {a : NDArray Flt}
    (hs : a.shape = s) (hx : ∀ x ∈ a.data, x = .nan ∨ (lb.toFlt.le x = true ∧ x.le ub.toFlt = true)) :
    ∃ msg, (Pattern.numeric c s lb ub dv fd).validate (.arr a) (some true) = .ok (true, msg) := by
  simp only [Pattern.WF] at hw
  have : Acc (.numeric c s lb ub dv fd) (.arr a) (some true) := by
    rw [acc_numeric]
    refine ⟨a, rfl, by rw [atleast1d_of_ne (by rw [hs]; exact hw.1), hs], fun _ x hxm => ?_⟩
    rcases hx x hxm with rfl | ⟨h1, h2⟩
    · simp only [Elem.toFlt, id, Flt.gt]
      constructor <;> (generalize lb.toFlt = l; generalize ub.toFlt = u; cases l <;> cases u <;> rfl)
    · have hn : x.NotNaN := by cases x <;> simp_all [Flt.le, Flt.lt, Flt.eq]
      rw [Flt.le_iff_not_lt hw.2.2.2.1 hn] at h1
      rw [Flt.le_iff_not_lt hn hw.2.2.2.2.1] at h2
      exact ⟨h1, h2⟩
  exact this

theorem Flt.nan_add (x : Flt) : Flt.nan + x = Flt.nan := by cases x <;> rfl
theorem Flt.add_nan (x : Flt) : x + Flt.nan = Flt.nan := by cases x <;> rfl

theorem Flt.foldl_nan (l : List Flt) : l.foldl (· + ·) Flt.nan = Flt.nan := by
  induction l with
  | nil => rfl
  | cons a l ih => rw [List.foldl_cons, Flt.nan_add, ih]

theorem Flt.sum_nan {l : List Flt} (h : Flt.nan ∈ l) : Flt.sum l = Flt.nan := by
  have : ∀ c : Flt, l.foldl (· + ·) c = Flt.nan := by
    induction l with
    | nil => simp at h
    | cons a l ih =>
      intro c
      rw [List.foldl_cons]
      rcases List.mem_cons.mp h with rfl | h
      · rw [Flt.add_nan, Flt.foldl_nan]
      · exact ih h _
  exact this 0

/-- **C13, the failure for simplex patterns.**  An array with a NaN in every simplex and no negative entry is
accepted. -/
theorem C13_simplex_accepts_nan {k s dv fd} {a : NDArray Flt} (hs : a.shape = s ++ [k])
    (hx : ∀ x ∈ a.data, x = .nan ∨ Flt.le 0 x = true) (hn : ∀ i < s.prod, Flt.nan ∈ Spec.block k a.data i) :
    ∃ msg, (Pattern.simplex k s dv fd).validate (.arr a) (some true) = .ok (true, msg) := by
  have : Acc (.simplex k s dv fd) (.arr a) (some true) := by
    rw [acc_simplex]
    refine ⟨a, rfl, hs, fun _ => ⟨fun x hxm => ?_, fun i hi => ?_⟩⟩
    · rcases hx x hxm with rfl | h1
      · rfl
      · have hn : x.NotNaN := by cases x <;> simp_all [Flt.le, Flt.lt, Flt.eq]
        rw [Flt.le_iff_not_lt (by simp) hn] at h1
        exact h1
    · have e : (chunk k a.data i).map (Elem.toFlt : Flt → Flt) = chunk k a.data i := by
        show List.map id _ = _; simp
      have hn' : Flt.nan ∈ chunk k a.data i := hn i hi
      rw [e, Flt.sum_nan hn']
      rfl
  exact this

/-- The claim of C13 is false for the code as written. -/
theorem C13_claim_false : ¬ Spec.C13Claim := by
  intro h
  have hw : (Pattern.numeric .array [2] (.int 0) (.int 1) true none).WF := by
    simp [Pattern.WF, PyNum.toFlt]
  obtain ⟨msg, hm⟩ := C13_numeric_accepts_nan hw (a := ⟨[2], [.nan, .nan]⟩) rfl (by simp)
  exact h _ (WF.built _ hw) ⟨[2], [.nan, .nan]⟩ rfl (by simp) msg hm

end Paragami
