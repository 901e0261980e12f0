import Verif.Spec.DTypes
import Verif.Spec.Memory
import Verif.Proofs.Canon
import Verif.Proofs.Memory
import Verif.Proofs.Rounding
import Verif.Proofs.SimplexFree

/-! # Data types of arrays: proofs -/

set_option linter.unusedSimpArgs false

namespace Paragami
open NDArray Spec Memory

/-! ### Types and casts -/

theorem DType.sup_idem (d : DType) : d.sup d = d := by cases d <;> rfl
theorem DType.sup_bool (d : DType) : d.sup .bool = d := by cases d <;> rfl
theorem DType.sup_left (a b : DType) : (a.sup b).sup a = a.sup b := by cases a <;> cases b <;> rfl
theorem DType.sup_right (a b : DType) : (a.sup b).sup b = a.sup b := by cases a <;> cases b <;> rfl
theorem DType.sup_trans {d a b : DType} (h : d.sup a = d) (h' : a.sup b = a) : d.sup b = d := by
  cases d <;> cases a <;> cases b <;> simp_all [DType.sup]
theorem DType.sup_cases (a b : DType) : a.sup b = a ∨ a.sup b = b := by cases a <;> cases b <;> simp [DType.sup]

variable {A : Arith}

theorem cast_self {d : DType} {e : Num} (h : Num.dtype e = d) : Num.cast A d e = e := by
  subst h; cases e <;> rfl

theorem round_bit (hA : A.Sane) (v : Bool) : A.round (.fin ((if v then 1 else 0 : ℤ) : ℝ)) = .fin (if v then 1 else 0) := by
  cases v
  · simpa using hA.zero
  · simpa using hA.one

theorem cast_cast (hA : A.Sane) {d d' : DType} (h : d.sup d' = d) (e : Num) : Num.cast A d (Num.cast A d' e) = Num.cast A d e := by
  cases d <;> cases d' <;> cases e <;> simp_all [DType.sup, Num.cast]
  next v => cases v <;> [simpa using hA.zero; simpa using hA.one]

/-! ### Values -/

theorem lookup_eraseEs (k : String) (vs : List (String × TVal)) : (TVal.eraseEs vs).lookup k = (vs.lookup k).map TVal.erase := by
  induction vs with
  | nil => simp [TVal.eraseEs]
  | cons kv r ih =>
    obtain ⟨k', v⟩ := kv
    simp only [TVal.eraseEs, List.lookup_cons, ih]
    split <;> simp

theorem wellTypedEs_lookup {vs : List (String × TVal)} (h : WellTypedEs vs) {k v} (hl : vs.lookup k = some v) : WellTyped v := by
  induction vs with
  | nil => simp at hl
  | cons kv r ih =>
    obtain ⟨k', v'⟩ := kv
    simp only [WellTypedEs] at h
    rw [List.lookup_cons] at hl
    split at hl
    · cases hl; exact h.1
    · exact ih h.2 hl

theorem val_map_wf {α β : Type} (f : α → β) : ∀ v : Val α, v.WF → (v.map f).WF
  | .arr a, h => by simpa [Val.map, Val.WF, NDArray.WF, NDArray.map] using h
  | .dict es, h => by
    simp only [Val.map, Val.WF] at h ⊢
    exact go es h
where
  go : ∀ es : List (String × Val α), Val.WFEs es → Val.WFEs (Val.mapEs f es)
  | [], _ => by simp [Val.mapEs, Val.WFEs]
  | (k, v) :: r, h => by
    simp only [Val.mapEs, Val.WFEs] at h ⊢
    exact ⟨val_map_wf f v h.1, go r h.2⟩

theorem val_map_map {α β γ : Type} (f : α → β) (g : β → γ) : ∀ v : Val α, (v.map f).map g = v.map (fun a => g (f a))
  | .arr a => by simp [Val.map, NDArray.map]
  | .dict es => by
    simp only [Val.map, Val.dict.injEq]
    exact go es
where
  go : ∀ es : List (String × Val α), Val.mapEs g (Val.mapEs f es) = Val.mapEs (fun a => g (f a)) es
  | [] => by simp [Val.mapEs]
  | (k, v) :: r => by
    simp only [Val.mapEs, List.cons.injEq, Prod.mk.injEq, true_and]
    exact ⟨val_map_map f g v, go r⟩

theorem val_map_inj {α β : Type} {f g : α → β} : ∀ v : Val α, v.map f = v.map g → ∀ a ∈ leaves v, f a = g a
  | .arr a, h => by
    simp only [Val.map, NDArray.map, Val.arr.injEq, NDArray.mk.injEq, true_and] at h
    intro e he
    simp only [leaves] at he
    exact List.map_inj_left.mp h e he
  | .dict es, h => by
    simp only [Val.map, Val.dict.injEq] at h
    simp only [leaves]
    exact go es h
where
  go : ∀ es : List (String × Val α), Val.mapEs f es = Val.mapEs g es → ∀ a ∈ leavesEs es, f a = g a
  | [], _ => by simp [leavesEs]
  | (k, v) :: r, h => by
    simp only [Val.mapEs, List.cons.injEq, Prod.mk.injEq, true_and] at h
    intro a ha
    simp only [leavesEs, List.mem_append] at ha
    rcases ha with ha | ha
    · exact val_map_inj v h.1 a ha
    · exact go r h.2 a ha

namespace Pattern

theorem canon_map {α β : Type} (f : α → β) (p : Pattern) : ∀ v : Val α, Spec.canon p (v.map f) = (Spec.canon p v).map f := by
  induction p using Pattern.ind
    (Q := fun es => ∀ vs : List (String × Val α), Spec.canonEs es (Val.mapEs f vs) = Val.mapEs f (Spec.canonEs es vs)) with
  | hnum c s lb ub dv fd => intro v; cases v <;> simp [Val.map, Spec.canon, atleast1d_map]
  | hsim k s dv fd => intro v; cases v <;> simp [Val.map, Spec.canon]
  | hpsd n lb dv fd => intro v; cases v <;> simp [Val.map, Spec.canon]
  | harr s b fd ih => intro v; cases v <;> simp [Val.map, Spec.canon]
  | hdict es l fd ih =>
    intro v
    cases v with
    | arr a => simp [Val.map, Spec.canon]
    | dict vs => simp [Val.map, Spec.canon, ih]
  | hnil => simp [Spec.canonEs, Val.mapEs]
  | hcons k p r ihp ihr vs =>
    simp only [Spec.canonEs, lookup_mapEs]
    cases vs.lookup k <;> simp [ihp, ihr, mapEs_cons]

theorem flat_map {α β : Type} (f : α → β) (p : Pattern) : ∀ v : Val α, p.flat (v.map f) = (p.flat v).map f := by
  induction p using Pattern.ind
    (Q := fun es => ∀ vs : List (String × Val α), flatEs es (Val.mapEs f vs) = (flatEs es vs).map f) with
  | hnum c s lb ub dv fd => intro v; cases v <;> simp [Val.map, flat, NDArray.map]
  | hsim k s dv fd => intro v; cases v <;> simp [Val.map, flat, NDArray.map]
  | hpsd n lb dv fd => intro v; cases v <;> simp [Val.map, flat, NDArray.map]
  | harr s b fd ih => intro v; cases v <;> simp [Val.map, flat, NDArray.map]
  | hdict es l fd ih =>
    intro v
    cases v with
    | arr a => simp [Val.map, flat, NDArray.map]
    | dict vs => simp [Val.map, flat, ih]
  | hnil => simp [flatEs]
  | hcons k p r ihp ihr vs =>
    simp only [flatEs, lookup_mapEs, ihr, List.map_append]
    cases vs.lookup k <;> simp [ihp]

mutual
/-- The largest type among the named arrays. -/
def top : Pattern → TVal → DType
  | .dict es _ _, .dict vs => topEs es vs
  | _, .arr d _ => d
  | _, _ => .bool
/-- `top` of the members. -/
def topEs : Entries → List (String × TVal) → DType
  | .nil, _ => .bool
  | .cons k p r, vs => (match vs.lookup k with | some v => top p v | none => .bool).sup (topEs r vs)
end

theorem top_arr (p : Pattern) (d : DType) (a : NDArray Num) : top p (.arr d a) = d := by
  cases p <;> simp [top]

theorem flattenNF_arr_data {p : Pattern} (hd : p.isDict = false) (hw : p.WF) {a x : NDArray Num} {vv} (ha : a.WF)
    (h : p.flattenNF (.arr a) vv = .ok x) : x = vec a.data := by
  obtain ⟨hacc, hne⟩ := flattenNF_ok_imp p hw (.arr a) vv x ha h
  rw [flattenNF_eq p hw (.arr a) vv ha hne hacc, flat_arr p a hd] at h
  cases h; rfl

theorem flattenArr_eq {p : Pattern} (hd : p.isDict = false) (hw : p.WF) (v : TVal) (hv : v.erase.WF) (ht : WellTyped v)
    (vv : Option Bool) : flattenArr p v vv =
      (p.flattenNF v.erase vv).map (fun x => (top p v, x.map (Num.cast A (top p v)))) := by
  cases v with
  | arr d a =>
    simp only [TVal.erase, top_arr, flattenArr, TVal.asArr, bind, Except.bind, pure, Except.pure]
    cases h : p.flattenNF (.arr a) vv with
    | error e => simp [Except.map]
    | ok x =>
      have hx := flattenNF_arr_data hd hw hv h
      subst hx
      simp only [Except.map, Except.ok.injEq, Prod.mk.injEq, true_and, NDArray.map, vec]
      congr 1
      simp only [WellTyped] at ht
      symm
      rw [List.map_congr_left (f := Num.cast A d) (g := id) fun e he => cast_self (ht e he)]
      simp
  | dict vs =>
    simp only [flattenArr, TVal.asArr, bind, Except.bind, TVal.erase]
    cases p <;> simp_all [flattenNF, isDict, Val.asArr, bind, Except.bind, Except.map, flattenNF_array_unfold, validate,
      requireValid]

theorem hstack_map {α β : Type} (f : α → β) (l : List (NDArray α)) :
    NDArray.hstack (l.map (NDArray.map f)) = (NDArray.hstack l).map (NDArray.map f) := by
  cases l with
  | nil => simp [NDArray.hstack, Except.map]
  | cons a r => simp [NDArray.hstack, Except.map, NDArray.map, vec, List.flatMap_map, List.map_flatMap]

theorem map_map_arr {α β γ : Type} (f : α → β) (g : β → γ) (a : NDArray α) : (a.map f).map g = a.map (fun e => g (f e)) := by
  simp [NDArray.map]

/-- Flattening with types is flattening, followed by the conversion to the largest type. -/
theorem flattenT_eq (hA : A.Sane) (p : Pattern) (hw : p.WF) : ∀ (v : TVal), v.erase.WF → WellTyped v → ∀ vv,
    flattenT A p v vv = (p.flattenNF v.erase vv).map (fun x => (top p v, x.map (Num.cast A (top p v)))) := by
  revert hw
  induction p using Pattern.ind
    (Q := fun es => WFEs es → ∀ (vs : List (String × TVal)), Val.WFEs (TVal.eraseEs vs) → WellTypedEs vs → ∀ vv,
      match flattenNFEs es (TVal.eraseEs vs) vv with
      | .error e => flattenTEs A es vs vv = .error e
      | .ok parts => ∃ pt, flattenTEs A es vs vv = .ok pt ∧ (pt.map (·.1)).foldr DType.sup .bool = topEs es vs ∧
          ∀ d : DType, d.sup (topEs es vs) = d → (pt.map fun q => q.2.map (Num.cast A d)) = parts.map (NDArray.map (Num.cast A d))) with
  | hnum c s lb ub dv fd => intro hw v hv ht vv; rw [flattenT]; exact flattenArr_eq rfl hw v hv ht vv
  | hsim k s dv fd => intro hw v hv ht vv; rw [flattenT]; exact flattenArr_eq rfl hw v hv ht vv
  | hpsd n lb dv fd => intro hw v hv ht vv; rw [flattenT]; exact flattenArr_eq rfl hw v hv ht vv
  | harr s b fd ih => intro hw v hv ht vv; rw [flattenT]; exact flattenArr_eq rfl hw v hv ht vv
  | hdict es l fd ih =>
    intro hw v hv ht vv
    simp only [WF] at hw
    rw [flattenT, flattenNF_dict_unfold]
    cases hr : requireValid ((Pattern.dict es l fd).validate v.erase vv) with
    | error e => simp [bind, Except.bind, Except.map]
    | ok u =>
      cases v with
      | arr d a => simp [TVal.asDict, TVal.erase, Val.asDict, bind, Except.bind, Except.map]
      | dict vs =>
        simp only [TVal.erase, Val.WF, WellTyped] at hv ht
        have := ih hw.2 vs hv ht vv
        simp only [TVal.asDict, TVal.erase, Val.asDict, bind, Except.bind, top]
        cases hp : flattenNFEs es (TVal.eraseEs vs) vv with
        | error e => rw [hp] at this; simp only at this; rw [this]; simp [Except.map]
        | ok parts =>
          rw [hp] at this
          simp only at this
          obtain ⟨pt, h1, h2, h3⟩ := this
          rw [h1]
          simp only [hstackT, h2, bind, Except.bind]
          rw [h3 _ (DType.sup_idem _), hstack_map]
          cases NDArray.hstack parts <;> simp [Except.map, pure, Except.pure]
  | hnil =>
    simp [flattenNFEs, flattenTEs, topEs]
  | hcons k p r ihp ihr hw vs hv ht vv =>
    simp only [WFEs] at hw
    simp only [flattenNFEs, flattenTEs, lookup_eraseEs, topEs]
    cases hl : vs.lookup k with
    | none => simp
    | some v =>
      have hv' : v.erase.WF := WFEs_lookup hv (k := k) (by rw [lookup_eraseEs, hl]; rfl)
      have h1 := ihp hw.1 v hv' (wellTypedEs_lookup ht hl) vv
      have h2 := ihr hw.2.2 vs hv ht vv
      simp only [Option.map_some, bind, Except.bind, h1]
      cases hp : p.flattenNF v.erase vv with
      | error e => simp [Except.map]
      | ok x =>
        simp only [Except.map]
        cases hr : flattenNFEs r (TVal.eraseEs vs) vv with
        | error e => rw [hr] at h2; simp only at h2; simp [h2]
        | ok xs =>
          rw [hr] at h2
          simp only at h2
          obtain ⟨pt, h2, h3, h4⟩ := h2
          simp only [h2, pure, Except.pure, Except.ok.injEq, exists_eq_left', List.map_cons, List.foldr_cons, h3, true_and,
            List.cons.injEq]
          intro d hd
          refine ⟨?_, h4 d (DType.sup_trans hd (DType.sup_right _ _))⟩
          rw [map_map_arr]
          congr 1
          funext e
          exact cast_cast hA (DType.sup_trans hd (DType.sup_left _ _)) e

/-- The result has the largest type among the named arrays. -/
theorem top_largest (p : Pattern) : ∀ (v : TVal) vv, p.NoEmpty → Acc p v.erase vv → Largest p v (top p v) := by
  have leaf : ∀ (p : Pattern) (v : TVal), p.isDict = false → (∃ a, v.erase = .arr a) → Largest p v (top p v) := by
    intro p v hp ⟨a, ha⟩
    cases v with
    | dict vs => simp [TVal.erase] at ha
    | arr d b =>
      rw [top_arr]
      constructor
      · cases p <;> simp_all [Occurs, isDict]
      · intro d' h
        have : d = d' := by cases p <;> simp_all [Occurs, isDict]
        rw [this]; exact DType.sup_idem _
  induction p using Pattern.ind
    (Q := fun es => ∀ (vs : List (String × TVal)) vv, NoEmptyEs es → AccEs es (TVal.eraseEs vs) vv →
      (es ≠ .nil → OccursEs (topEs es vs) es vs) ∧ ∀ d', OccursEs d' es vs → (topEs es vs).sup d' = topEs es vs) with
  | hnum c s lb ub dv fd =>
    intro v vv _ ha; rw [acc_numeric] at ha; obtain ⟨a, ha, _⟩ := ha; exact leaf _ v rfl ⟨a, ha⟩
  | hsim k s dv fd =>
    intro v vv _ ha; rw [acc_simplex] at ha; obtain ⟨a, ha, _⟩ := ha; exact leaf _ v rfl ⟨a, ha⟩
  | hpsd n lb dv fd =>
    intro v vv _ ha; rw [acc_psd] at ha; obtain ⟨a, ha, _⟩ := ha; exact leaf _ v rfl ⟨a, ha⟩
  | harr s b fd ih =>
    intro v vv _ ha; rw [acc_array] at ha; obtain ⟨a, ha, _⟩ := ha; exact leaf _ v rfl ⟨a, ha⟩
  | hdict es l fd ih =>
    intro v vv hne ha
    simp only [NoEmpty] at hne
    rw [acc_dict] at ha
    obtain ⟨us, hus, ha⟩ := ha
    cases v with
    | arr d a => simp [TVal.erase] at hus
    | dict vs =>
      simp only [TVal.erase, Val.dict.injEq] at hus
      subst hus
      obtain ⟨h1, h2⟩ := ih vs vv hne.2 ha
      exact ⟨by simpa [Occurs, top] using h1 hne.1, by simpa [Occurs, top] using h2⟩
  | hnil => simp [OccursEs]
  | hcons k p r ihp ihr vs vv hne ha =>
    simp only [NoEmptyEs] at hne
    simp only [AccEs, lookup_eraseEs] at ha
    obtain ⟨⟨u, hu, hp⟩, ha⟩ := ha
    cases hl : vs.lookup k with
    | none => simp [hl] at hu
    | some v =>
      simp only [hl, Option.map_some, Option.some.injEq] at hu
      subst hu
      obtain ⟨h1, h2⟩ := ihp v vv hne.1 hp
      obtain ⟨h3, h4⟩ := ihr vs vv hne.2 ha
      simp only [OccursEs, topEs, hl, Option.some.injEq, exists_eq_left', ne_eq, reduceCtorEq, not_false_eq_true, true_implies]
      constructor
      · cases r with
        | nil => left; simp only [topEs, DType.sup_bool]; exact h1
        | cons k' p' r' =>
          rcases DType.sup_cases (top p v) (topEs (.cons k' p' r') vs) with h | h
          · rw [h]; exact Or.inl h1
          · rw [h]; exact Or.inr (h3 (by simp))
      · rintro d' (h | h)
        · exact DType.sup_trans (DType.sup_left _ _) (h2 d' h)
        · exact DType.sup_trans (DType.sup_right _ _) (h4 d' h)

/-! ### Conversions keep values valid -/

/-- What the conversion does to integers. -/
structure Keeps (A : Arith) (ρ : ℤ → Flt) : Prop where
  zero : ρ 0 = .fin 0
  one : ρ 1 = .fin 1
  notNaN : ∀ n, (ρ n).NotNaN
  lo : ∀ (n : ℤ) c, A.Machine c → (Flt.fin n).lt c = false → (ρ n).lt c = false
  hi : ∀ (n : ℤ) c, A.Machine c → (Flt.fin n).gt c = false → (ρ n).gt c = false

theorem keeps_rnd (hA : A.Sane) : Keeps A fun n => A.round (.fin n) := by
  refine ⟨by simpa using hA.zero, by simpa using hA.one, fun n => hA.round_notNaN trivial, ?_, ?_⟩
  · intro n c hc h
    cases c with
    | nan => cases A.round (.fin (n : ℝ)) <;> rfl
    | ninf => cases A.round (.fin (n : ℝ)) <;> rfl
    | pinf => simp [Flt.lt] at h
    | fin r => exact Flt.not_lt_of_le (hA.le_round hc (by simpa using h))
  · intro n c hc h
    cases c with
    | nan => cases A.round (.fin (n : ℝ)) <;> rfl
    | pinf => cases A.round (.fin (n : ℝ)) <;> rfl
    | ninf => simp [Flt.gt, Flt.lt] at h
    | fin r => exact Flt.not_lt_of_le (hA.round_le hc (by simpa [Flt.gt] using h))

theorem keeps_id : Keeps A fun n => .fin n :=
  ⟨by simp, by simp, fun _ => trivial, fun _ _ _ h => h, fun _ _ _ h => h⟩

/-- Either the conversion changes no number, or all entries are integers and it acts on them. -/
theorem cast_cases (hA : A.Sane) {d d' : DType} {l : List Num} (h : ∀ e ∈ l, Num.dtype e = d') (hd : d.sup d' = d) :
    (∀ e ∈ l, (Num.cast A d e).toFlt = e.toFlt) ∨
      ∃ ρ, Keeps A ρ ∧ ∀ e ∈ l, ∃ n : ℤ, e.toFlt = .fin n ∧ (Num.cast A d e).toFlt = ρ n := by
  by_cases hf : d = .float ∧ d' = .int
  · right
    obtain ⟨rfl, rfl⟩ := hf
    refine ⟨_, keeps_rnd hA, fun e he => ?_⟩
    have := h e he
    cases e with
    | i n => exact ⟨n, rfl, rfl⟩
    | b v => simp [Num.dtype] at this
    | f x => simp [Num.dtype] at this
  · left
    intro e he
    have := h e he
    cases e <;> cases d <;> simp_all [Num.dtype, Num.cast, Num.toFlt]

theorem toFlt_map {a : NDArray Num} {f : Num → Num} : (a.map f).data.map Elem.toFlt = a.data.map fun e => (f e).toFlt := by
  simp only [NDArray.map, List.map_map]; rfl

theorem mem_chunk {α : Type} {k i : Nat} {l : List α} {e : α} (h : e ∈ chunk k l i) : e ∈ l :=
  List.mem_of_mem_drop (List.mem_of_mem_take h)

/-- A row of nonnegative integers with sum one consists of zeros and a one. -/
theorem simplex_row {l : List Num} {g : Num → Flt} {ρ : ℤ → Flt} (hρ : Keeps A ρ)
    (h : ∀ e ∈ l, ∃ n : ℤ, e.toFlt = .fin n ∧ g e = ρ n) (h0 : ∀ e ∈ l, e.toFlt.lt 0 = false)
    (hs : ((Flt.sum (l.map Num.toFlt) - 1).abs.gt (Flt.fin (1 / 10 ^ 12))) = false) : ∀ e ∈ l, g e = e.toFlt := by
  choose! N hN using h
  have e1 : l.map Num.toFlt = (l.map fun e => ((N e : ℤ) : ℝ)).map Flt.fin := by
    rw [List.map_map]
    exact List.map_congr_left fun e he => (hN e he).1
  have e2 : (l.map fun e => ((N e : ℤ) : ℝ)).sum = ((l.map N).sum : ℤ) := by
    clear hs hN h0 e1
    induction l with
    | nil => simp
    | cons a r ih => simp [ih]
  have hpos : ∀ n ∈ l.map N, 0 ≤ n := by
    intro n hn
    rw [List.mem_map] at hn
    obtain ⟨e, he, rfl⟩ := hn
    have := h0 e he
    rw [(hN e he).1] at this
    have h2 : ¬ ((N e : ℝ) < 0) := by simpa [Flt.lt] using this
    exact_mod_cast not_lt.mp h2
  rw [e1, Flt.sum_fin, e2] at hs
  have hs1 : |(((l.map N).sum : ℤ) : ℝ) - 1| ≤ 1 / 10 ^ 12 := by
    have : ((Flt.fin (((l.map N).sum : ℤ) : ℝ) - Flt.fin 1).abs.gt (Flt.fin (1 / 10 ^ 12))) = false := by simpa using hs
    simpa [Flt.gt, Flt.lt, Flt.abs] using this
  have hs2 : (l.map N).sum = 1 := by
    have : |(l.map N).sum - 1| < 1 := by
      have h3 : |(((l.map N).sum : ℤ) : ℝ) - 1| < 1 := lt_of_le_of_lt hs1 (by norm_num)
      exact_mod_cast h3
    have := Int.abs_lt_one_iff.mp this
    omega
  intro e he
  have hle : N e ≤ 1 := hs2 ▸ List.single_le_sum hpos _ (List.mem_map_of_mem he)
  have hge := hpos _ (List.mem_map_of_mem (f := N) he)
  obtain ⟨h1, h2⟩ := hN e he
  rw [h1, h2]
  have : N e = 0 ∨ N e = 1 := by omega
  rcases this with h | h <;> rw [h]
  · rw [hρ.zero]; simp
  · rw [hρ.one]; simp

theorem entry_map {n : Nat} {l : List Num} {g : Num → Flt} (hl : l.length = n * n) {i j : Nat} (hi : i < n) (hj : j < n) :
    ∃ e ∈ l, entry n (l.map Num.toFlt) i j = e.toFlt ∧ entry n (l.map g) i j = g e := by
  have hij : i * n + j < l.length := by rw [hl]; nlinarith
  refine ⟨l[i * n + j], List.getElem_mem _, ?_, ?_⟩ <;>
    simp [entry, List.getD_eq_getElem?_getD, List.getElem?_map, List.getElem?_eq_getElem hij]

theorem eq_self {x : Flt} (h : x.NotNaN) : x.eq x = true := by
  cases x <;> simp_all [Flt.eq, Flt.NotNaN]

/-- Converting an array keeps it valid. -/
theorem acc_cast_arr (hA : A.Sane) (p : Pattern) : MachineBounds A p → p.WF → ∀ {d d' : DType}, d.sup d' = d → ∀ (a : NDArray Num) vv, a.WF →
    (∀ e ∈ a.data, Num.dtype e = d') → Acc p (.arr a) vv → Acc p (.arr (a.map (Num.cast A d))) vv := by
  induction p using Pattern.ind (Q := fun _ => True) with
  | hnum c s lb ub dv fd =>
    intro hb _ d d' hd a vv _ ht ha
    simp only [MachineBounds] at hb
    rw [acc_numeric] at ha ⊢
    obtain ⟨_, h, hs, hv⟩ := ha
    cases h
    refine ⟨_, rfl, by rw [atleast1d_map]; exact hs, fun hvv x hx => ?_⟩
    simp only [NDArray.map, List.mem_map] at hx
    obtain ⟨e, he, rfl⟩ := hx
    have h1 := hv hvv e he
    change e.toFlt.lt lb.toFlt = false ∧ e.toFlt.gt ub.toFlt = false at h1
    change (Num.cast A d e).toFlt.lt lb.toFlt = false ∧ (Num.cast A d e).toFlt.gt ub.toFlt = false
    rcases cast_cases hA ht hd with h | ⟨ρ, hρ, h⟩
    · rw [h e he]; exact h1
    · obtain ⟨n, h2, h3⟩ := h e he
      rw [h2] at h1
      rw [h3]
      exact ⟨hρ.lo n _ hb.1 h1.1, hρ.hi n _ hb.2 h1.2⟩
  | hsim k s dv fd =>
    intro _ _ d d' hd a vv _ ht ha
    rw [acc_simplex] at ha ⊢
    obtain ⟨_, h, hs, hv⟩ := ha
    cases h
    refine ⟨_, rfl, hs, fun hvv => ?_⟩
    obtain ⟨h0, hsum⟩ := hv hvv
    have key : ∀ i < s.prod, ∀ e ∈ chunk k a.data i, (Num.cast A d e).toFlt = e.toFlt := by
      intro i hi
      rcases cast_cases hA ht hd with h | ⟨ρ, hρ, h⟩
      · exact fun e he => h e (mem_chunk he)
      · exact simplex_row (g := fun e => (Num.cast A d e).toFlt) hρ (fun e he => h e (mem_chunk he)) (fun e he => h0 e (mem_chunk he))
          (hsum i hi)
    constructor
    · intro x hx
      simp only [NDArray.map, List.mem_map] at hx
      obtain ⟨e, he, rfl⟩ := hx
      have h1 := h0 e he
      change e.toFlt.lt 0 = false at h1
      change (Num.cast A d e).toFlt.lt 0 = false
      rcases cast_cases hA ht hd with h | ⟨ρ, hρ, h⟩
      · rw [h e he]; exact h1
      · obtain ⟨n, h2, h3⟩ := h e he
        rw [h2] at h1
        rw [h3]
        exact hρ.lo n 0 (by simpa using hA.zero_machine) h1
    · intro i hi
      have : (chunk k (a.map (Num.cast A d)).data i).map Elem.toFlt = (chunk k a.data i).map Elem.toFlt := by
        simp only [NDArray.map]
        rw [← map_chunk, List.map_map]
        exact List.map_congr_left (key i hi)
      rw [this]
      exact hsum i hi
  | hpsd n lb dv fd =>
    intro hb _ d d' hd a vv hw ht ha
    simp only [MachineBounds] at hb
    rw [acc_psd] at ha ⊢
    obtain ⟨_, h, hs, hv⟩ := ha
    cases h
    refine ⟨_, rfl, hs, fun hvv => ?_⟩
    obtain ⟨h0, h1⟩ := hv hvv
    have hl : a.data.length = n * n := by rw [hw, hs]; simp
    rw [toFlt_map]
    change (∀ i < n, (entry n (a.data.map Num.toFlt) i i).lt lb.toFlt = false) at h0
    change (∀ i < n, ∀ j < n, (entry n (a.data.map Num.toFlt) j i).eq (entry n (a.data.map Num.toFlt) i j) = true) at h1
    rcases cast_cases hA ht hd with h | ⟨ρ, hρ, h⟩
    · rw [List.map_congr_left (g := Num.toFlt) h]
      exact ⟨h0, h1⟩
    · constructor
      · intro i hi
        obtain ⟨e, he, h2, h3⟩ := entry_map (g := fun e => (Num.cast A d e).toFlt) hl hi hi
        obtain ⟨m, h4, h5⟩ := h e he
        have := h0 i hi
        rw [h2, h4] at this
        rw [h3, h5]
        exact hρ.lo m _ hb this
      · intro i hi j hj
        obtain ⟨e, he, h2, h3⟩ := entry_map (g := fun e => (Num.cast A d e).toFlt) hl hi hj
        obtain ⟨m, h4, h5⟩ := h e he
        obtain ⟨e', he', h2', h3'⟩ := entry_map (g := fun e => (Num.cast A d e).toFlt) hl hj hi
        obtain ⟨m', h4', h5'⟩ := h e' he'
        have := h1 i hi j hj
        rw [h2, h4, h2', h4'] at this
        have hm : m' = m := by simpa [Flt.eq] using this
        rw [h3, h5, h3', h5', hm]
        exact eq_self (hρ.notNaN m)
  | harr s b fd ih =>
    intro hb hw d d' hd a vv haw ht ha
    simp only [MachineBounds] at hb
    simp only [WF] at hw
    rw [acc_array] at ha ⊢
    obtain ⟨_, h, hs, hv⟩ := ha
    cases h
    refine ⟨_, rfl, hs, fun i hi => ?_⟩
    have := ih hb hw.2.2 hd ⟨b.shape, chunk b.shape.prod a.data i⟩ vv (chunk_wf haw hs hi) (fun e he => ht e (mem_chunk he)) (hv i hi)
    simpa [NDArray.map, map_chunk] using this
  | hdict es l fd ih =>
    intro _ _ d d' _ a vv _ _ ha
    rw [acc_dict] at ha
    obtain ⟨vs, h, _⟩ := ha
    cases h
  | hnil => trivial
  | hcons => trivial

/-- Converting a value keeps it valid. -/
theorem acc_cast (hA : A.Sane) (p : Pattern) : MachineBounds A p → p.WF → ∀ (v : TVal) vv, v.erase.WF → WellTyped v → ∀ {d : DType},
    d.sup (top p v) = d → Acc p v.erase vv → Acc p (v.erase.map (Num.cast A d)) vv := by
  have leaf : ∀ p : Pattern, MachineBounds A p → p.WF → p.isDict = false → ∀ (v : TVal) vv, v.erase.WF → WellTyped v → ∀ {d : DType},
      d.sup (top p v) = d → (∃ a, v.erase = .arr a) → Acc p v.erase vv → Acc p (v.erase.map (Num.cast A d)) vv := by
    intro p hb hw _ v vv hv ht d hd ⟨a, ha⟩ hacc
    cases v with
    | dict vs => simp [TVal.erase] at ha
    | arr d' b =>
      rw [top_arr] at hd
      exact acc_cast_arr hA p hb hw hd b vv hv ht hacc
  induction p using Pattern.ind
    (Q := fun es => MachineBoundsEs A es → WFEs es → ∀ (vs : List (String × TVal)) vv, Val.WFEs (TVal.eraseEs vs) → WellTypedEs vs →
      ∀ (d : DType), d.sup (topEs es vs) = d → AccEs es (TVal.eraseEs vs) vv → AccEs es (Val.mapEs (Num.cast A d) (TVal.eraseEs vs)) vv) with
  | hnum c s lb ub dv fd =>
    intro hb hw v vv hv ht d hd ha
    have := ha; rw [acc_numeric] at this; obtain ⟨a, h, _⟩ := this
    exact leaf _ hb hw rfl v vv hv ht hd ⟨a, h⟩ ha
  | hsim k s dv fd =>
    intro hb hw v vv hv ht d hd ha
    have := ha; rw [acc_simplex] at this; obtain ⟨a, h, _⟩ := this
    exact leaf _ hb hw rfl v vv hv ht hd ⟨a, h⟩ ha
  | hpsd n lb dv fd =>
    intro hb hw v vv hv ht d hd ha
    have := ha; rw [acc_psd] at this; obtain ⟨a, h, _⟩ := this
    exact leaf _ hb hw rfl v vv hv ht hd ⟨a, h⟩ ha
  | harr s b fd ih =>
    intro hb hw v vv hv ht d hd ha
    have := ha; rw [acc_array] at this; obtain ⟨a, h, _⟩ := this
    exact leaf _ hb hw rfl v vv hv ht hd ⟨a, h⟩ ha
  | hdict es l fd ih =>
    intro hb hw v vv hv ht d hd ha
    simp only [MachineBounds] at hb
    simp only [WF] at hw
    rw [acc_dict] at ha ⊢
    obtain ⟨us, hus, ha⟩ := ha
    cases v with
    | arr d' a => simp [TVal.erase] at hus
    | dict vs =>
      simp only [TVal.erase, Val.dict.injEq] at hus
      subst hus
      exact ⟨_, by simp only [TVal.erase, Val.map], ih hb hw.2 vs vv hv ht d hd ha⟩
  | hnil => simp [AccEs]
  | hcons k p r ihp ihr hb hw vs vv hv ht d hd ha =>
    simp only [MachineBoundsEs] at hb
    simp only [WFEs] at hw
    simp only [AccEs, lookup_eraseEs, lookup_mapEs] at ha ⊢
    obtain ⟨⟨u, hu, hp⟩, ha⟩ := ha
    cases hl : vs.lookup k with
    | none => simp [hl] at hu
    | some v =>
      simp only [hl, Option.map_some, Option.some.injEq] at hu
      subst hu
      simp only [topEs, hl] at hd
      refine ⟨⟨_, rfl, ihp hb.1 hw.1 v vv ?_ (wellTypedEs_lookup ht hl) (DType.sup_trans hd (DType.sup_left _ _)) hp⟩,
        ihr hb.2 hw.2.2 vs vv hv ht d (DType.sup_trans hd (DType.sup_right _ _)) ha⟩
      exact WFEs_lookup hv (k := k) (by rw [lookup_eraseEs, hl]; rfl)

/-! ### Folding -/

theorem noItems_false {p : Pattern} (h : p.NoEmpty) : p.noItems = false := by
  induction p using Pattern.ind (Q := fun _ => True) with
  | harr s b fd ih =>
    simp only [NoEmpty] at h
    simp [noItems, ih h.2, h.1.ne']
  | hnil => trivial
  | hcons => trivial
  | _ => simp [noItems]

theorem erase_withType (d : DType) (p : Pattern) : ∀ l : List Num, (withType d p (p.unflat l)).erase = p.unflat l := by
  induction p using Pattern.ind (Q := fun es => ∀ l : List Num, TVal.eraseEs (withTypeEs d es (unflatEs es l)) = unflatEs es l) with
  | hdict es l fd ih => intro l; simp [unflat, withType, TVal.erase, ih]
  | hnil => simp [unflatEs, withTypeEs, TVal.eraseEs]
  | hcons k p r ihp ihr l => simp [unflatEs, withTypeEs, TVal.eraseEs, ihp, ihr]
  | _ => intro l; simp [unflat, withType, TVal.erase]

theorem withType_all (d : DType) (p : Pattern) : p.NoEmpty → ∀ l : List Num, AllOfType d (withType d p (p.unflat l)) := by
  induction p using Pattern.ind (Q := fun es => NoEmptyEs es → ∀ l : List Num, AllOfTypeEs d (withTypeEs d es (unflatEs es l))) with
  | hdict es l fd ih =>
    intro h l
    simp only [NoEmpty] at h
    simp [unflat, withType, AllOfType, ih h.2]
  | hnil => simp [unflatEs, withTypeEs, AllOfTypeEs]
  | hcons k p r ihp ihr h l =>
    simp only [NoEmptyEs] at h
    simp [unflatEs, withTypeEs, AllOfTypeEs, ihp h.1, ihr h.2]
  | _ => intro h l; simp [unflat, withType, AllOfType, noItems_false h]

theorem noItems_iff (p : Pattern) : p.noItems = true ↔ Hollow p := by
  induction p using Pattern.ind (Q := fun _ => True) with
  | harr s b fd ih => simp [noItems, Hollow, ih]
  | hnil => trivial
  | hcons => trivial
  | _ => simp [noItems, Hollow]

theorem withType_folded (d : DType) (p : Pattern) : ∀ l : List Num, FoldedTypes d p (withType d p (p.unflat l)) := by
  have key : ∀ (p : Pattern), (Hollow p → (if p.noItems = true then DType.float else d) = .float) ∧
      (¬ Hollow p → (if p.noItems = true then DType.float else d) = d) := by
    intro p
    rw [← noItems_iff]
    constructor <;> intro h <;> simp [h]
  induction p using Pattern.ind (Q := fun es => ∀ l : List Num, FoldedTypesEs d es (withTypeEs d es (unflatEs es l))) with
  | hdict es l fd ih => intro l; simp only [unflat, withType, FoldedTypes]; exact ih l
  | hnil => simp [unflatEs, withTypeEs, FoldedTypesEs]
  | hcons k p r ihp ihr l => simp only [unflatEs, withTypeEs, FoldedTypesEs]; exact ⟨trivial, ihp _, ihr _⟩
  | _ => intro l; simp only [unflat, withType, FoldedTypes]; exact key _

end Pattern

end Paragami
