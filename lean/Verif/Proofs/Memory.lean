import Verif.Spec.Memory
import Verif.Proofs.NonfreeTrip

/-!
# The memory-level `fold` and `flatten` refine the value-level ones, and what they share
-/

set_option linter.unusedSimpArgs false
set_option linter.unusedSectionVars false

namespace Paragami
namespace Memory
open Spec

/-! ### Reading cells -/

theorem rd_prefix {m m' : Mem} (h : m <+: m') {a : Addr} (ha : a < m.length) : rd m' a = rd m a := by
  obtain ⟨t, rfl⟩ := h
  simp [rd, List.getD_eq_getElem?_getD, List.getElem?_append_left ha]

theorem map_rd_prefix {m m' : Mem} (h : m <+: m') {as : List Addr} (ha : Allocated m as) :
    as.map (rd m') = as.map (rd m) := by
  apply List.map_congr_left
  intro a h1
  exact rd_prefix h (ha a h1)

theorem arr_rd_prefix {m m' : Mem} (h : m <+: m') {a : NDArray Addr} (ha : Allocated m a.data) :
    a.map (rd m') = a.map (rd m) := by
  simp [NDArray.map, map_rd_prefix h ha]

theorem Allocated.mono {m m' : Mem} (h : m <+: m') {as : List Addr} (ha : Allocated m as) : Allocated m' as :=
  fun a h1 => lt_of_lt_of_le (ha a h1) h.length_le

theorem rd_fresh (m d : List Flt) : ((List.range d.length).map (m.length + ·)).map (rd (m ++ d)) = d := by
  apply List.ext_getElem
  · simp
  · intro i h1 h2
    simp [rd, List.getD_eq_getElem?_getD, h2]

/-! ### Values -/

theorem mapEs_cons {α β : Type} (f : α → β) (k : String) (v : Val α) (r : List (String × Val α)) :
    Val.mapEs f ((k, v) :: r) = (k, v.map f) :: Val.mapEs f r := by
  simp [Val.mapEs]

theorem lookup_mapEs {α β : Type} (f : α → β) (k : String) (vs : List (String × Val α)) :
    (Val.mapEs f vs).lookup k = (vs.lookup k).map (Val.map f) := by
  induction vs with
  | nil => simp [Val.mapEs]
  | cons e r ih =>
    obtain ⟨k', v⟩ := e
    rw [mapEs_cons]
    by_cases h : k == k' <;> simp [List.lookup, h, ih]

mutual
theorem val_map_congr {α β : Type} {f g : α → β} : ∀ (v : Val α), (∀ a ∈ leaves v, f a = g a) → v.map f = v.map g
  | .arr a, h => by
    simp only [Val.map, NDArray.map, Val.arr.injEq, NDArray.mk.injEq, true_and]
    exact List.map_congr_left h
  | .dict es, h => by
    simp only [Val.map, Val.dict.injEq]
    exact mapEs_congr es h
theorem mapEs_congr {α β : Type} {f g : α → β} : ∀ (es : List (String × Val α)), (∀ a ∈ leavesEs es, f a = g a) →
    Val.mapEs f es = Val.mapEs g es
  | [], _ => by simp [Val.mapEs]
  | (k, v) :: r, h => by
    rw [mapEs_cons, mapEs_cons, val_map_congr v, mapEs_congr r]
    · intro a ha; exact h a (by simp [leavesEs, ha])
    · intro a ha; exact h a (by simp [leavesEs, ha])
end

theorem val_rd_prefix {m m' : Mem} (h : m <+: m') {v : Val Addr} (ha : Allocated m (leaves v)) :
    v.map (rd m') = v.map (rd m) := val_map_congr v fun a h1 => rd_prefix h (ha a h1)

theorem leaves_lookup {α : Type} {vs : List (String × Val α)} {k : String} {v : Val α} (h : vs.lookup k = some v) :
    ∀ a ∈ leaves v, a ∈ leavesEs vs := by
  induction vs with
  | nil => simp at h
  | cons e r ih =>
    obtain ⟨k', w⟩ := e
    intro a ha
    simp only [leavesEs, List.mem_append]
    by_cases hk : (k == k') = true
    · simp only [List.lookup, hk, Option.some.injEq] at h
      subst h; exact Or.inl ha
    · simp only [List.lookup, Bool.not_eq_true _ |>.mp hk] at h
      exact Or.inr (ih h a ha)

/-! ### Naturality of the view operations -/

section
variable {α β : Type} (f : α → β)

theorem atleast1d_map (a : NDArray α) : (a.map f).atleast1d = a.atleast1d.map f := by
  obtain ⟨s, d⟩ := a
  cases s <;> simp [NDArray.atleast1d, NDArray.map]

theorem slice_map (a : NDArray α) (lo n : Nat) : (a.map f).slice lo n = (a.slice lo n).map f := by
  simp [NDArray.slice, NDArray.map, NDArray.vec, List.map_drop, List.map_take]

theorem reshape_map (a : NDArray α) (s : List Nat) : (a.map f).reshape s = (a.reshape s).map (NDArray.map f) := by
  simp only [NDArray.reshape, NDArray.map, List.length_map]
  split <;> simp [Except.map, NDArray.map]

theorem getItem_map (a : NDArray α) (idx : List Nat) : (a.map f).getItem idx = (a.getItem idx).map (NDArray.map f) := by
  simp only [NDArray.getItem, NDArray.map]
  by_cases h : NDArray.inRange a.shape idx = true <;>
    simp [h, Except.map, NDArray.map, List.map_drop, List.map_take]

theorem asArr_map (v : Val α) : (v.map f).asArr = v.asArr.map (NDArray.map f) := by
  cases v <;> simp [Val.map, Val.asArr, Except.map]

theorem asDict_map (v : Val α) : (v.map f).asDict = v.asDict.map (Val.mapEs f) := by
  cases v <;> simp [Val.map, Val.asDict, Except.map]

theorem len_map (a : NDArray α) : (a.map f).len = a.len := by
  obtain ⟨s, d⟩ := a
  cases s <;> simp [NDArray.len, NDArray.map]

end

/-! ### Refinement -/

/-- Running `c` from `m` raises exactly when `q` does, only appends cells, and otherwise the results are related. -/
def Ref {β γ : Type} (c : MM β) (q : Except Err γ) (m : Mem) (R : β → Mem → γ → Prop) : Prop :=
  match c m with
  | .error e => q = .error e
  | .ok (b, m') => m <+: m' ∧ ∃ g, q = .ok g ∧ R b m' g

variable {β γ β' γ' : Type}

theorem Ref.bind {c : MM β} {q : Except Err γ} {m : Mem} {R : β → Mem → γ → Prop} {f : β → MM β'} {h : γ → Except Err γ'}
    {R' : β' → Mem → γ' → Prop} (hc : Ref c q m R)
    (hf : ∀ b m1 g, m <+: m1 → R b m1 g → Ref (f b) (h g) m1 R') : Ref (andThen c f) (q >>= h) m R' := by
  unfold Ref at hc ⊢
  unfold andThen
  cases hcm : c m with
  | error e => simp only [hcm] at hc ⊢; rw [hc]; rfl
  | ok bm =>
    obtain ⟨b, m1⟩ := bm
    simp only [hcm] at hc ⊢
    obtain ⟨hp, g, rfl, hR⟩ := hc
    have := hf b m1 g hp hR
    unfold Ref at this
    cases hfm : f b m1 with
    | error e => simp only [hfm] at this ⊢; exact this
    | ok bm' =>
      obtain ⟨b', m2⟩ := bm'
      simp only [hfm] at this ⊢
      exact ⟨hp.trans this.1, this.2⟩

theorem Ref.ret {b : β} {g : γ} {m : Mem} {R : β → Mem → γ → Prop} (h : R b m g) : Ref (ret b) (.ok g) m R :=
  ⟨List.prefix_refl _, g, rfl, h⟩

theorem Ref.error {e : Err} {m : Mem} {R : β → Mem → γ → Prop} : Ref (lift (.error e)) (.error e) m R := rfl

theorem Ref.lift {r : Except Err β} {q : Except Err γ} {m : Mem} {R : β → Mem → γ → Prop} {f : β → γ}
    (hq : q = r.map f) (h : ∀ b, r = .ok b → R b m (f b)) : Ref (Memory.lift r) q m R := by
  subst hq
  cases r with
  | error e => rfl
  | ok b => exact ⟨List.prefix_refl _, f b, rfl, h b rfl⟩

theorem Ref.reading {g : (Addr → Flt) → Except Err β} {q : Except Err β} {m : Mem} (hq : g (rd m) = q) :
    Ref (reading g) q m (fun b m' b' => m' = m ∧ b' = b) := by
  subst hq
  unfold Ref Memory.reading
  cases h : g (rd m) with
  | error e => rfl
  | ok b => exact ⟨List.prefix_refl _, b, rfl, rfl, rfl⟩

/-- A newly allocated array: its cells are new, distinct, and hold `g`. -/
def Fresh (m : Mem) (a : NDArray Addr) (m' : Mem) (g : NDArray Flt) : Prop :=
  g = a.map (rd m') ∧ (∀ x ∈ a.data, m.length ≤ x ∧ x < m'.length) ∧ a.data.Nodup

theorem Ref.allocate {g : (Addr → Flt) → Except Err (NDArray Flt)} {q : Except Err (NDArray Flt)} {m : Mem}
    (hq : g (rd m) = q) : Ref (allocate g) q m (Fresh m) := by
  subst hq
  unfold Ref Memory.allocate
  cases h : g (rd m) with
  | error e => rfl
  | ok a =>
    refine ⟨List.prefix_append _ _, a, rfl, ?_, ?_, ?_⟩
    · obtain ⟨s, d⟩ := a
      simp only [NDArray.map, rd_fresh]
    · intro x hx
      simp only [List.mem_map, List.mem_range] at hx
      obtain ⟨i, hi, rfl⟩ := hx
      simp; omega
    · refine List.Nodup.map ?_ List.nodup_range
      intro a b h; simpa using h

theorem Ref.mono {c : MM β} {q : Except Err γ} {m : Mem} {R R' : β → Mem → γ → Prop} (hc : Ref c q m R)
    (h : ∀ b m' g, m <+: m' → R b m' g → R' b m' g) : Ref c q m R' := by
  unfold Ref at hc ⊢
  cases hcm : c m with
  | error e => simpa only [hcm] using hc
  | ok bm =>
    obtain ⟨b, m'⟩ := bm
    simp only [hcm] at hc ⊢
    obtain ⟨hp, g, hq, hR⟩ := hc
    exact ⟨hp, g, hq, h _ _ _ hp hR⟩

/-- Lists of arrays. -/
theorem Ref.mapMM {ι : Type} {f : ι → MM (NDArray Addr)} {h : ι → Except Err (NDArray Flt)} {l : List ι} {m : Mem}
    (hf : ∀ i ∈ l, ∀ m1, m <+: m1 → Ref (f i) (h i) m1 (fun b m' g => g = b.map (rd m') ∧ Allocated m' b.data)) :
    Ref (Memory.mapMM f l) (mapE h l) m
      (fun bs m' gs => gs = bs.map (·.map (rd m')) ∧ ∀ b ∈ bs, Allocated m' b.data) := by
  induction l generalizing m with
  | nil => exact Ref.ret ⟨rfl, by simp⟩
  | cons i l ih =>
    have e : mapE h (i :: l) = (h i >>= fun b => mapE h l >>= fun bs => .ok (b :: bs)) := by
      simp only [mapE, bind, Except.bind]
      cases h i <;> [rfl; (cases mapE h l <;> rfl)]
    rw [e]
    unfold Memory.mapMM
    refine Ref.bind (hf i (by simp) m (List.prefix_refl _)) ?_
    intro b m1 g h1 hb
    refine Ref.bind (ih fun j hj m2 h2 => hf j (by simp [hj]) m2 (h1.trans h2)) ?_
    rintro bs m2 gs h2 ⟨hgs, hbs⟩
    refine Ref.ret ⟨?_, ?_⟩
    · rw [hb.1, hgs, List.map_cons, arr_rd_prefix h2 hb.2]
    · intro b' hb'
      rcases List.mem_cons.mp hb' with rfl | hb'
      · exact Allocated.mono h2 hb.2
      · exact hbs b' hb'

/-! ### The value-level functions as chains -/

/-- `checkFlat` at value level. -/
def checkFlatP {α : Type} (msg : String) (x : NDArray α) (n : Nat) : Except Err (NDArray α) :=
  let x := x.atleast1d
  if x.ndim ≠ 1 then .error (.valueError "The argument to fold must be a 1d vector.")
  else if x.size ≠ n then .error (.valueError msg)
  else .ok x

theorem Ref.checkFlat {msg : String} {x : NDArray Addr} {n : Nat} {m : Mem} :
    Ref (checkFlat msg x n) (checkFlatP msg (x.map (rd m)) n) m
      (fun b m' g => m' = m ∧ g = b.map (rd m) ∧ b.data = x.data ∧ b.data.length = n) := by
  have e1 : (x.map (rd m)).atleast1d = x.atleast1d.map (rd m) := atleast1d_map _ _
  have e2 : (x.atleast1d.map (rd m)).ndim = x.atleast1d.ndim := rfl
  have e3 : (x.atleast1d.map (rd m)).size = x.atleast1d.size := by simp [NDArray.size, NDArray.map]
  unfold Memory.checkFlat checkFlatP
  simp only [e1, e2, e3]
  by_cases h1 : x.atleast1d.ndim = 1
  · by_cases h2 : x.atleast1d.size = n
    · simp only [h1, h2, ne_eq, not_true_eq_false, if_false]
      exact Ref.ret ⟨rfl, rfl, NDArray.atleast1d_data x, h2⟩
    · simp only [h1, h2, ne_eq, not_true_eq_false, not_false_eq_true, if_false, if_true]
      exact Ref.error
  · simp only [h1, ne_eq, not_false_eq_true, if_true]
    exact Ref.error

section
variable {α : Type} [Elem α]

theorem numeric_foldNF_chain (c s lb ub dv fd) (x : NDArray α) (vv : Option Bool) :
    (Pattern.numeric c s lb ub dv fd).foldNF x vv =
      (checkFlatP "Wrong size for array." x s.prod >>= fun x => x.reshape s >>= fun a =>
        Pattern.requireValid ((Pattern.numeric c s lb ub dv fd).validate (.arr a) vv) >>= fun _ => .ok (.arr a)) := by
  simp only [Pattern.foldNF, Numeric.foldNF, checkFlatP, Pattern.requireValid, Pattern.validate, Val.asArr,
    bind, Except.bind, throw, throwThe, MonadExceptOf.throw, pure, Except.pure]
  split_ifs <;> (try rfl)
  simp only []
  cases x.atleast1d.reshape s with
  | error e => rfl
  | ok a => simp only []; split_ifs <;> rfl

theorem simplex_foldNF_chain (k s dv fd) (x : NDArray α) (vv : Option Bool) :
    (Pattern.simplex k s dv fd).foldNF x vv =
      (x.len >>= fun n => if n ≠ (s ++ [k]).prod then .error (.valueError "flat_val is the wrong length.") else
        x.reshape (s ++ [k]) >>= fun a =>
        Pattern.requireValid ((Pattern.simplex k s dv fd).validate (.arr a) vv) >>= fun _ => .ok (.arr a)) := by
  simp only [Pattern.foldNF, Simplex.foldNF, Pattern.requireValid, Pattern.validate, Val.asArr,
    bind, Except.bind, throw, throwThe, MonadExceptOf.throw, pure, Except.pure]
  cases x.len with
  | error e => rfl
  | ok n =>
    simp only []
    split_ifs
    · rfl
    · cases x.reshape (s ++ [k]) with
      | error e => rfl
      | ok a =>
        simp only []
        cases Simplex.validate k s dv a vv with
        | error e => rfl
        | ok r => simp only []; split_ifs <;> rfl

theorem psd_foldNF_chain (n lb dv fd) (x : NDArray α) (vv : Option Bool) :
    (Pattern.psd n lb dv fd).foldNF x vv =
      (checkFlatP "Wrong length for PSDSymmetricMatrix flat value." x (n ^ 2) >>= fun x => x.reshape [n, n] >>= fun a =>
        Pattern.requireValid ((Pattern.psd n lb dv fd).validate (.arr a) vv) >>= fun _ => .ok (.arr a)) := by
  simp only [Pattern.foldNF, PSD.foldNF, checkFlatP, Pattern.requireValid, Pattern.validate, Val.asArr,
    bind, Except.bind, throw, throwThe, MonadExceptOf.throw, pure, Except.pure]
  split_ifs <;> (try rfl)
  simp only []
  cases x.atleast1d.reshape [n, n] with
  | error e => rfl
  | ok a =>
    simp only []
    cases PSD.validate n lb.toFlt dv a vv with
    | error e => rfl
    | ok r => simp only []; split_ifs <;> rfl

theorem checkFlat_eq (x : NDArray α) (n : Nat) : Pattern.checkFlat x n = checkFlatP "Wrong size." x n := by
  simp only [Pattern.checkFlat, checkFlatP, bind, Except.bind, throw, throwThe, MonadExceptOf.throw, pure, Except.pure]

end

end Memory
end Paragami
