import Verif.Spec.FunctionPatterns
import Verif.Proofs.FreeTrip

/-! # Function wrappers: loops over the sorted positions -/

namespace Paragami

namespace FunctionPatterns
open Pattern

/-! ### Sorting -/

/-- The triples (position, pattern, `free`) in the order given. -/
def Wrapper.items (s : Wrapper) : List (ℤ × Pattern × Option Bool) := s.nums.zip (s.patterns.zip s.free)

/-- The lengths agree and the positions are distinct. -/
structure Wrapper.Ok (s : Wrapper) : Prop where
  lenP : s.nums.length = s.patterns.length
  lenF : s.free.length = s.patterns.length
  nodup : s.nums.Nodup

theorem filterMap_range {α : Type} (l : List α) : (List.range l.length).filterMap (fun i => l[i]?) = l := by
  induction l with
  | nil => rfl
  | cons a l ih =>
    rw [List.length_cons, List.range_succ_eq_map, List.filterMap_cons]
    simp only [List.getElem?_cons_zero, List.filterMap_map]
    congr 1

theorem length_items {s : Wrapper} (h : s.Ok) : s.items.length = s.nums.length := by
  simp [Wrapper.items, h.lenP, h.lenF]

theorem getElem?_items (s : Wrapper) (i : Nat) : s.items[i]? = (do
    let k ← s.nums[i]?
    let p ← s.patterns[i]?
    let f ← s.free[i]?
    return (k, p, f)) := by
  simp only [Wrapper.items, List.zip, List.getElem?_zipWith]
  cases s.nums[i]? <;> cases s.patterns[i]? <;> cases s.free[i]? <;> rfl

theorem sorted_eq (s : Wrapper) : s.sorted = (argsort s.nums).filterMap (fun i => s.items[i]?) := by
  simp only [getElem?_items, Wrapper.sorted]

theorem sorted_perm {s : Wrapper} (h : s.Ok) : s.sorted.Perm s.items := by
  rw [sorted_eq, argsort]
  refine ((List.mergeSort_perm _ _).filterMap _).trans ?_
  rw [← length_items h, filterMap_range]

theorem map_fst_items {s : Wrapper} (h : s.Ok) : s.items.map (·.1) = s.nums := by
  rw [Wrapper.items, List.map_fst_zip]
  simp [h.lenP, h.lenF]

theorem sorted_sorted {s : Wrapper} (h : s.Ok) : s.sorted.Pairwise (fun a b => a.1 < b.1) := by
  have h1 : s.sorted.Pairwise (fun a b => a.1 ≤ b.1) := by
    rw [sorted_eq, List.pairwise_filterMap]
    refine (List.pairwise_mergeSort (le := fun i j => decide (s.nums.getD i 0 ≤ s.nums.getD j 0)) ?_ ?_ _).imp ?_
    · intro a b c; simp only [decide_eq_true_eq]; exact le_trans
    · intro a b; simp only [Bool.or_eq_true, decide_eq_true_eq]; exact le_total _ _
    · intro i j hij b hb b' hb'
      simp only [decide_eq_true_eq] at hij
      have e1 : s.nums[i]? = some b.1 := by
        have := congrArg (fun l : List ℤ => l[i]?) (map_fst_items h)
        simp only [List.getElem?_map, hb, Option.map_some] at this
        exact this.symm
      have e2 : s.nums[j]? = some b'.1 := by
        have := congrArg (fun l : List ℤ => l[j]?) (map_fst_items h)
        simp only [List.getElem?_map, hb', Option.map_some] at this
        exact this.symm
      simpa only [List.getD_eq_getElem?_getD, e1, e2, Option.getD_some] using hij
  have h2 : s.sorted.Pairwise (fun a b => a.1 ≠ b.1) := by
    have : (s.sorted.map (·.1)).Nodup := by
      rw [((sorted_perm h).map _).nodup_iff, map_fst_items h]; exact h.nodup
    rw [List.nodup_iff_pairwise_ne, List.pairwise_map] at this
    exact this
  exact (h1.and h2).imp fun ⟨a, b⟩ => lt_of_le_of_ne a b

theorem sorted_unique {s t : Wrapper} (hs : s.Ok) (ht : t.Ok) (h : s.items.Perm t.items) : s.sorted = t.sorted :=
  List.Perm.eq_of_pairwise (fun _ _ _ _ h1 h2 => absurd h1 (not_lt.mpr h2.le)) (sorted_sorted hs) (sorted_sorted ht)
    ((sorted_perm hs).trans (h.trans (sorted_perm ht).symm))

/-! ### Positions -/

/-- The list position meant by a Python index. -/
def pos (n : Nat) (k : ℤ) : Nat := if k < 0 then (k + n).toNat else k.toNat

theorem pyGet_pos {α : Type} (l : List α) (k : ℤ) : pyGet l k = if k < -(l.length : ℤ) then .error .indexError
    else match l[pos l.length k]? with | some a => .ok a | none => .error .indexError := by
  unfold pyGet pos
  by_cases h : k < 0
  · simp only [h, if_true]
    by_cases h2 : k + l.length < 0
    · rw [if_pos h2, if_pos (by omega)]
    · rw [if_neg h2, if_neg (by omega)]
      cases l[(k + ↑l.length).toNat]? <;> rfl
  · simp only [h, if_false]
    rw [if_neg (by omega)]
    cases l[k.toNat]? <;> rfl

theorem pyGet_eq {α : Type} {l : List α} {k : ℤ} (h1 : -(l.length : ℤ) ≤ k) {a : α} (h : l[pos l.length k]? = some a) :
    pyGet l k = .ok a := by
  rw [pyGet_pos, if_neg (by omega), h]

theorem pyGet_ok {α : Type} {l : List α} {k : ℤ} {a : α} (h : pyGet l k = .ok a) :
    -(l.length : ℤ) ≤ k ∧ k < l.length ∧ l[pos l.length k]? = some a := by
  rw [pyGet_pos] at h
  split at h
  · cases h
  · split at h
    · rename_i b hb
      cases h
      have hlt := (List.getElem?_eq_some_iff.mp hb).1
      refine ⟨by omega, ?_, hb⟩
      unfold pos at hlt
      split at hlt <;> omega
    · cases h

theorem pyGet_error {α : Type} {l : List α} {k : ℤ} (h : (l.length : ℤ) ≤ k) : pyGet l k = .error .indexError := by
  unfold pyGet
  have h0 : ¬ k < 0 := by omega
  simp only [h0, if_false]
  have : l[k.toNat]? = none := by
    rw [List.getElem?_eq_none_iff]; omega
  simp [this]

theorem clip_eq {n : Nat} {k : ℤ} (h1 : -(n : ℤ) ≤ k) (h2 : k ≤ n) : clip n k = pos n k := by
  unfold clip pos; split
  · rfl
  · omega

theorem clip_succ {n : Nat} {k : ℤ} (h1 : -(n : ℤ) ≤ k) (h2 : k < n) (h3 : k ≠ -1) : clip n (k + 1) = pos n k + 1 := by
  unfold clip pos
  split <;> split <;> omega

theorem slice_agree {α : Type} {args T : List α} (hT : T.length = args.length) {L K : Nat} (hL : L ≤ K) (hK : K ≤ args.length)
    (h : ∀ j, L ≤ j → j < K → T[j]? = args[j]?) : T.take L ++ (args.take K).drop L = T.take K := by
  apply List.ext_getElem?
  intro j
  rw [List.getElem?_append]
  simp only [List.length_take, hT, List.getElem?_take, List.getElem?_drop]
  have : min L args.length = L := by omega
  rw [this]
  by_cases h1 : j < L
  · simp [h1, lt_of_lt_of_le h1 hL]
  · simp only [h1, if_false]
    have e : L + (j - L) = j := by omega
    rw [e]
    by_cases h2 : j < K
    · simp [h2, h j (by omega) h2]
    · simp [h2]

section
variable {X : Type} {tr : Pattern → Option Bool → Arg X → Except Err (Arg X)} {args : List (Arg X)}

/-- Both loops build the list `T` that has the transformed values at the given positions and agrees with the arguments elsewhere.
Negative positions are fine as long as none is -1 and the positions they stand for are in increasing order. -/
theorem inputLoop_ok {T : List (Arg X)} (hT : T.length = args.length) (items : List (ℤ × Pattern × Option Bool)) :
    ∀ (last : ℤ) (L : Nat), clip args.length last = L → L ≤ args.length →
    items.Pairwise (fun a b => pos args.length a.1 < pos args.length b.1) →
    (∀ it ∈ items, it.1 ≠ -1 ∧ -(args.length : ℤ) ≤ it.1 ∧ it.1 < args.length ∧ L ≤ pos args.length it.1 ∧
      ∃ a v, args[pos args.length it.1]? = some a ∧ tr it.2.1 it.2.2 a = .ok v ∧ T[pos args.length it.1]? = some v) →
    (∀ j, L ≤ j → (∀ it ∈ items, pos args.length it.1 ≠ j) → T[j]? = args[j]?) →
    inputLoop tr args items last (T.take L) = .ok T := by
  induction items with
  | nil =>
    intro last L hL hL' _ _ h
    have e : pySlice args last args.length = (args.take args.length).drop L := by
      unfold pySlice; rw [hL, clip_eq (by omega) (by omega)]
      have : pos args.length args.length = args.length := by unfold pos; simp
      rw [this]
    rw [inputLoop, e, slice_agree hT hL' le_rfl (fun j h1 _ => h j h1 (by simp)), ← hT, List.take_length]
  | cons it items ih =>
    obtain ⟨k, p, f⟩ := it
    intro last L hL hL' hs hi h
    obtain ⟨h1, h2, h3, h4, a, v, ha, hv, hTv⟩ := hi _ (List.mem_cons_self ..)
    simp only at h1 h2 h3 h4 ha hv hTv
    rw [List.pairwise_cons] at hs
    have hp : pos args.length k < args.length := (List.getElem?_eq_some_iff.mp ha).1
    have e : T.take L ++ pySlice args last k ++ [v] = T.take (pos args.length k + 1) := by
      have e1 : pySlice args last k = (args.take (pos args.length k)).drop L := by
        unfold pySlice; rw [hL, clip_eq h2 h3.le]
      rw [e1, slice_agree hT h4 hp.le, List.take_add_one, hTv, Option.toList_some]
      intro j hj1 hj2
      refine h j hj1 fun it hit => ?_
      rw [List.mem_cons] at hit
      rcases hit with rfl | hit
      · exact fun e => absurd (show j < pos args.length k from hj2) (by simp only at e; omega)
      · have := hs.1 it hit
        simp only at this
        omega
    rw [inputLoop, pyGet_eq h2 ha]
    simp only [bind, Except.bind, hv]
    rw [e]
    refine ih (k + 1) _ (clip_succ h2 h3 h1) hp hs.2 (fun it hit => ?_) (fun j hj hj' => ?_)
    · obtain ⟨g1, g2, g3, g4, g5⟩ := hi it (List.mem_cons_of_mem _ hit)
      exact ⟨g1, g2, g3, hs.1 it hit, g5⟩
    · refine h j (by omega) fun it hit => ?_
      rw [List.mem_cons] at hit
      rcases hit with rfl | hit
      · simp only; omega
      · exact hj' it hit

/-- A loop that finishes has found and transformed every position. -/
theorem inputLoop_imp (items : List (ℤ × Pattern × Option Bool)) : ∀ (last : ℤ) (acc R : List (Arg X)),
    inputLoop tr args items last acc = .ok R → ∀ it ∈ items, ∃ a v, pyGet args it.1 = .ok a ∧ tr it.2.1 it.2.2 a = .ok v := by
  induction items with
  | nil => intro _ _ _ _ it hit; cases hit
  | cons it items ih =>
    obtain ⟨k, p, f⟩ := it
    intro last acc R h it hit
    rw [inputLoop] at h
    obtain ⟨a, ha, h⟩ := bind_ok h
    obtain ⟨v, hv, h⟩ := bind_ok h
    rw [List.mem_cons] at hit
    rcases hit with rfl | hit
    · exact ⟨a, v, ha, hv⟩
    · exact ih _ _ _ h it hit

/-- If every transformation of an existing argument succeeds and some argument is missing, the error is `IndexError`. -/
theorem inputLoop_missing (items : List (ℤ × Pattern × Option Bool)) : ∀ (last : ℤ) (acc : List (Arg X)),
    (∀ it ∈ items, 0 ≤ it.1 ∧ ∀ a, args[it.1.toNat]? = some a → ∃ v, tr it.2.1 it.2.2 a = .ok v) →
    (∃ it ∈ items, (args.length : ℤ) ≤ it.1) → inputLoop tr args items last acc = .error .indexError := by
  induction items with
  | nil => rintro _ _ _ ⟨it, hit, _⟩; cases hit
  | cons it items ih =>
    obtain ⟨k, p, f⟩ := it
    intro last acc h hm
    rw [inputLoop]
    by_cases hk : (args.length : ℤ) ≤ k
    · rw [pyGet_error hk]; rfl
    · obtain ⟨h0, h1⟩ := h _ (List.mem_cons_self ..)
      simp only at h0 h1
      obtain ⟨a, ha⟩ : ∃ a, args[k.toNat]? = some a := by
        have hlt : k.toNat < args.length := by omega
        exact ⟨_, List.getElem?_eq_getElem hlt⟩
      obtain ⟨v, hv⟩ := h1 a ha
      have hp : pos args.length k = k.toNat := by unfold pos; rw [if_neg (by omega)]
      rw [pyGet_eq (a := a) (by omega) (by rw [hp]; exact ha)]
      simp only [bind, Except.bind, hv]
      refine ih _ _ (fun it hit => h it (List.mem_cons_of_mem _ hit)) ?_
      obtain ⟨it, hit, hl⟩ := hm
      rw [List.mem_cons] at hit
      rcases hit with rfl | hit
      · exact absurd hl hk
      · exact ⟨it, hit, hl⟩

/-- The loop over return values is the loop over arguments when no return value is missing. -/
theorem outputLoop_eq (named : Bool) (items : List (ℤ × Pattern × Option Bool)) : ∀ (last : ℤ) (acc : List (Arg X)),
    (∀ it ∈ items, it.1 < args.length) → outputLoop named tr args items last acc = inputLoop tr args items last acc := by
  induction items with
  | nil => intros; rfl
  | cons it items ih =>
    obtain ⟨k, p, f⟩ := it
    intro last acc h
    have hk := h _ (List.mem_cons_self ..)
    simp only at hk
    rw [outputLoop, inputLoop, if_neg (by omega)]
    simp only [bind, Except.bind]
    cases pyGet args k with
    | error e => rfl
    | ok a =>
      simp only
      cases tr p f a with
      | error e => rfl
      | ok v => exact ih _ _ (fun it hit => h it (List.mem_cons_of_mem _ hit))

theorem outputLoop_imp (named : Bool) (items : List (ℤ × Pattern × Option Bool)) : ∀ (last : ℤ) (acc R : List (Arg X)),
    outputLoop named tr args items last acc = .ok R → ∀ it ∈ items, it.1 < args.length := by
  induction items with
  | nil => intro _ _ _ _ it hit; cases hit
  | cons it items ih =>
    obtain ⟨k, p, f⟩ := it
    intro last acc R h it hit
    rw [outputLoop] at h
    split at h
    · cases h
    · rename_i hk
      simp only [bind, Except.bind] at h
      obtain ⟨a, ha, h⟩ := bind_ok h
      obtain ⟨v, hv, h⟩ := bind_ok h
      rw [List.mem_cons] at hit
      rcases hit with rfl | hit
      · simp only; omega
      · exact ih _ _ _ h it hit

theorem outputLoop_missing (named : Bool) (items : List (ℤ × Pattern × Option Bool)) : ∀ (last : ℤ) (acc : List (Arg X)),
    (∀ it ∈ items, 0 ≤ it.1 ∧ ∀ a, args[it.1.toNat]? = some a → ∃ v, tr it.2.1 it.2.2 a = .ok v) →
    (∃ it ∈ items, (args.length : ℤ) ≤ it.1) →
    outputLoop named tr args items last acc = .error (nameErr named "Not enough return values") := by
  induction items with
  | nil => rintro _ _ _ ⟨it, hit, _⟩; cases hit
  | cons it items ih =>
    obtain ⟨k, p, f⟩ := it
    intro last acc h hm
    rw [outputLoop]
    by_cases hk : (args.length : ℤ) ≤ k
    · rw [if_pos hk]; rfl
    · obtain ⟨h0, h1⟩ := h _ (List.mem_cons_self ..)
      simp only at h0 h1
      obtain ⟨a, ha⟩ : ∃ a, args[k.toNat]? = some a := by
        have hlt : k.toNat < args.length := by omega
        exact ⟨_, List.getElem?_eq_getElem hlt⟩
      obtain ⟨v, hv⟩ := h1 a ha
      have hp : pos args.length k = k.toNat := by unfold pos; rw [if_neg (by omega)]
      rw [if_neg hk]
      simp only [bind, Except.bind]
      rw [pyGet_eq (a := a) (by omega) (by rw [hp]; exact ha)]
      simp only [hv]
      refine ih _ _ (fun it hit => h it (List.mem_cons_of_mem _ hit)) ?_
      obtain ⟨it, hit, hl⟩ := hm
      rw [List.mem_cons] at hit
      rcases hit with rfl | hit
      · exact absurd hl hk
      · exact ⟨it, hit, hl⟩

end

/-! ### Construction -/

theorem atleast1d_vec {α : Type} {a : NDArray α} (h : a.WF) (hd : a.ndim ≤ 1) : a.atleast1d = NDArray.vec a.data := by
  obtain ⟨s, d⟩ := a
  unfold NDArray.WF at h
  match s with
  | [] => simp only [List.prod_nil] at h; simp [NDArray.atleast1d, NDArray.vec, h]
  | [n] => simp only [List.prod_singleton] at h; simp [NDArray.atleast1d, NDArray.vec, h]
  | _ :: _ :: _ => simp [NDArray.ndim] at hd

theorem atleast1d_big {α : Type} {a : NDArray α} (hd : ¬ a.ndim ≤ 1) : a.atleast1d = a := by
  obtain ⟨s, d⟩ := a
  match s with
  | [] => simp [NDArray.ndim] at hd
  | _ :: _ => rfl

theorem broadcasts_vec (s : List Nat) (n : Nat) : broadcasts s [n] = true ↔ s = [] ∨ s = [1] ∨ s = [n] := by
  match s with
  | [] => simp [broadcasts]
  | [m] => simp [broadcasts]; tauto
  | _ :: _ :: _ => simp [broadcasts]

theorem productRanges_vec (n : Nat) : NDArray.productRanges [n] = (List.range n).map ([·]) := by
  rw [List.map_eq_flatMap]; rfl

theorem broadcastData_vec {α : Type} {a : NDArray α} (h : a.WF) {n : Nat} (hs : a.shape = [] ∨ a.shape = [1] ∨ a.shape = [n]) :
    (broadcastData a [n]).length = n ∧
      ∀ i, i < n → (broadcastData a [n])[i]? = if a.data.length = 1 then a.data[0]? else a.data[i]? := by
  obtain ⟨s, d⟩ := a
  unfold NDArray.WF at h
  simp only at hs h
  have key : ∀ l : List α, (∀ i, i < n → l[i]? = if d.length = 1 then d[0]? else d[i]?) →
      l.length = n → broadcastData ⟨s, d⟩ [n] = l → (broadcastData ⟨s, d⟩ [n]).length = n ∧
        ∀ i, i < n → (broadcastData ⟨s, d⟩ [n])[i]? = if d.length = 1 then d[0]? else d[i]? := by
    intro l h1 h2 h3; rw [h3]; exact ⟨h2, h1⟩
  have single : ∀ x, d = [x] → (s = [] ∨ s = [1]) → broadcastData ⟨s, d⟩ [n] = List.replicate n x := by
    rintro x rfl hs
    unfold broadcastData
    rw [productRanges_vec, List.filterMap_map]
    have : (List.range n).map (fun _ => x) = List.replicate n x := by simp
    rw [← this]
    conv_rhs => rw [← List.filterMap_eq_map]
    apply List.filterMap_congr
    rintro i -
    rcases hs with rfl | rfl <;> simp [NDArray.ravel]
  by_cases h1 : s = [] ∨ s = [1]
  · obtain ⟨x, rfl⟩ : ∃ x, d = [x] := by
      apply List.length_eq_one_iff.mp
      rcases h1 with rfl | rfl <;> simpa using h
    exact key (List.replicate n x) (fun i hi => by simp [hi]) (by simp) (single x rfl h1)
  · obtain rfl : s = [n] := by tauto
    simp only [List.prod_singleton] at h
    have hn1 : n ≠ 1 := by rintro rfl; exact h1 (.inr rfl)
    refine key d (fun i hi => by rw [if_neg (by omega)]) h ?_
    unfold broadcastData
    rw [productRanges_vec, List.filterMap_map]
    conv_rhs => rw [← filterMap_range d, h]
    apply List.filterMap_congr
    rintro i -
    simp [NDArray.ravel, hn1]

theorem dedup_length {α : Type} [DecidableEq α] (l : List α) : l.length = l.dedup.length ↔ l.Nodup := by
  refine ⟨fun h => ?_, fun h => by rw [List.dedup_eq_self.mpr h]⟩
  have := (List.dedup_sublist l).eq_of_length h.symm
  rw [← this]; exact List.nodup_dedup l

/-- The positions when `argnums` is `None` or given. -/
def numList (n : Nat) : Option (NDArray ℤ) → List ℤ
  | none => (List.range n).map Int.ofNat
  | some a => a.data

theorem construct_vec {P : NDArray Pattern} {F : NDArray (Option Bool)} {flat : Bool} {A : Option (NDArray ℤ)} (hP : P.WF)
    (hA : ∀ a, A = some a → a.WF) (h1 : P.ndim ≤ 1) (h2 : ∀ a, A = some a → a.ndim ≤ 1) :
    construct P F flat A =
      if ¬ (F.shape = [] ∨ F.shape = [1] ∨ F.shape = [P.data.length]) then .error (.valueError "could not broadcast")
      else if ¬ (numList P.data.length A).Nodup then .error (.valueError "argnums must not contain duplicated values.")
      else if (numList P.data.length A).length ≠ P.data.length then
        .error (.valueError "argnums must be the same length as patterns.")
      else .ok ⟨P.data, broadcastData F [P.data.length], numList P.data.length A, flat⟩ := by
  have hn : ∀ n, (numArray n A).atleast1d =
      NDArray.vec (numList n A) := by
    intro n
    cases A with
    | none => rfl
    | some a => exact atleast1d_vec (hA a rfl) (h2 a rfl)
  unfold construct
  rw [atleast1d_vec hP h1]
  simp only [bind, Except.bind, NDArray.len, NDArray.vec, NDArray.ndim, List.length_singleton, ne_eq, not_true, if_false]
  have hn' := hn P.data.length
  simp only [NDArray.vec] at hn'
  rw [hn']
  simp only [broadcastTo, broadcasts_vec, List.length_singleton, not_true, if_false, dedup_length]
  by_cases c1 : F.shape = [] ∨ F.shape = [1] ∨ F.shape = [P.data.length]
  · rw [if_pos c1, if_neg (not_not.mpr c1)]
    simp only [List.length_singleton, not_true, if_false]
    by_cases c2 : (numList P.data.length A).Nodup
    · rw [if_neg (not_not.mpr c2), if_neg (not_not.mpr c2)]
      by_cases c3 : (numList P.data.length A).length = P.data.length
      · rw [if_neg (not_not.mpr c3), if_neg (not_not.mpr c3)]
        rfl
      · rw [if_pos c3, if_pos c3]; rfl
    · rw [if_pos c2, if_pos c2]; rfl
  · rw [if_neg c1, if_pos c1]

theorem construct_bad {P : NDArray Pattern} {F : NDArray (Option Bool)} {flat : Bool} {A : Option (NDArray ℤ)}
    (h : ¬ P.ndim ≤ 1 ∨ (∃ a, A = some a ∧ ¬ a.ndim ≤ 1)) (hP : P.WF) : ∃ msg, construct P F flat A = .error (.valueError msg) := by
  by_cases h1 : P.ndim ≤ 1
  · obtain ⟨a, rfl, ha⟩ := h.resolve_left (not_not.mpr h1)
    unfold construct
    rw [atleast1d_vec hP h1]
    simp only [bind, Except.bind, NDArray.len, NDArray.vec, NDArray.ndim, List.length_singleton, ne_eq, not_true, if_false,
      numArray, atleast1d_big ha]
    cases hb : broadcastTo F [P.data.length] with
    | error e =>
      simp only [broadcastTo] at hb
      split at hb
      · cases hb
      · cases hb; exact ⟨_, rfl⟩
    | ok g =>
      have : ¬ a.shape.length = 1 := by unfold NDArray.ndim at ha; omega
      simp only [this, not_false_eq_true, if_true]
      exact ⟨_, rfl⟩
  · unfold construct
    rw [atleast1d_big h1]
    obtain ⟨s, d⟩ := P
    match s with
    | [] => simp [NDArray.ndim] at h1
    | n :: s =>
      simp only [bind, Except.bind, NDArray.len]
      cases hb : broadcastTo F (n :: s) with
      | error e =>
        simp only [broadcastTo] at hb
        split at hb
        · cases hb
        · cases hb; exact ⟨_, rfl⟩
      | ok g =>
        have : NDArray.ndim (⟨n :: s, d⟩ : NDArray Pattern) ≠ 1 := by omega
        simp only [if_pos this]
        exact ⟨_, rfl⟩

theorem mem_items {s : Wrapper} (_h : s.Ok) {k p f} : (k, p, f) ∈ s.items ↔ Spec.Targets s k p f := by
  rw [List.mem_iff_getElem?]
  unfold Spec.Targets
  refine exists_congr fun i => ?_
  rw [getElem?_items]
  cases h1 : s.nums[i]? <;> cases h2 : s.patterns[i]? <;> cases h3 : s.free[i]? <;>
    simp [bind, Option.bind, pure]

theorem exists_target {s : Wrapper} (h : s.Ok) {k : ℤ} (hk : k ∈ s.nums) : ∃ p f, Spec.Targets s k p f := by
  obtain ⟨i, hi⟩ := List.mem_iff_getElem?.mp hk
  have hl := (List.getElem?_eq_some_iff.mp hi).1
  exact ⟨_, _, i, hi, List.getElem?_eq_getElem (h.lenP ▸ hl), List.getElem?_eq_getElem (by rw [h.lenF, ← h.lenP]; exact hl)⟩

theorem target_mem {s : Wrapper} {k p f} (h : Spec.Targets s k p f) : k ∈ s.nums := by
  obtain ⟨i, h1, -, -⟩ := h
  exact List.mem_iff_getElem?.mpr ⟨i, h1⟩

theorem target_unique {s : Wrapper} (h : s.Ok) {k p f p' f'} (h1 : Spec.Targets s k p f) (h2 : Spec.Targets s k p' f') :
    p = p' ∧ f = f' := by
  obtain ⟨i, a1, a2, a3⟩ := h1
  obtain ⟨j, b1, b2, b3⟩ := h2
  have hi := (List.getElem?_eq_some_iff.mp a1).1
  obtain rfl : i = j := (List.getElem?_inj hi h.nodup).mp (a1.trans b1.symm)
  exact ⟨Option.some.inj (a2.symm.trans b2), Option.some.inj (a3.symm.trans b3)⟩

section
variable {X : Type} {tr : Pattern → Option Bool → Arg X → Except Err (Arg X)} {args : List (Arg X)}

/-- Given all the transformed values, there is a list that has them in place. -/
theorem exists_replaced {s : Wrapper} (h : s.Ok) (n : ℤ → Nat) (hinj : ∀ k ∈ s.nums, ∀ k' ∈ s.nums, n k = n k' → k = k')
    (ht : ∀ k p f, Spec.Targets s k p f → ∃ a v, args[n k]? = some a ∧ tr p f a = .ok v) :
    ∃ T : List (Arg X), T.length = args.length ∧
      (∀ k p f, Spec.Targets s k p f → ∃ a v, args[n k]? = some a ∧ tr p f a = .ok v ∧ T[n k]? = some v) ∧
      (∀ j, (∀ k ∈ s.nums, n k ≠ j) → T[j]? = args[j]?) := by
  classical
  let g : Nat → Arg X → Arg X := fun j a =>
    if hj : ∃ v, ∃ k p f, Spec.Targets s k p f ∧ n k = j ∧ tr p f a = .ok v then hj.choose else a
  refine ⟨args.mapIdx g, by simp, fun k p f hk => ?_, fun j hj => ?_⟩
  · obtain ⟨a, v, ha, hv⟩ := ht k p f hk
    refine ⟨a, v, ha, hv, ?_⟩
    rw [List.getElem?_mapIdx, ha, Option.map_some]
    have hex : ∃ v, ∃ k' p f, Spec.Targets s k' p f ∧ n k' = n k ∧ tr p f a = .ok v := ⟨v, k, p, f, hk, rfl, hv⟩
    have e : g (n k) a = hex.choose := dif_pos hex
    rw [e]
    obtain ⟨k', p', f', hk', hn, hv'⟩ := hex.choose_spec
    obtain rfl := hinj _ (target_mem hk') _ (target_mem hk) hn
    obtain ⟨rfl, rfl⟩ := target_unique h hk' hk
    rw [hv] at hv'
    exact congrArg some (Except.ok.inj hv').symm
  · rw [List.getElem?_mapIdx]
    cases args[j]? with
    | none => rfl
    | some a =>
      rw [Option.map_some]
      congr 1
      apply dif_neg
      rintro ⟨v, k, p, f, hk, hn, -⟩
      exact hj k (target_mem hk) hn

theorem pos_nonneg {n : Nat} {k : ℤ} (h : 0 ≤ k) : pos n k = k.toNat := by unfold pos; rw [if_neg (by omega)]

/-- The loop on non-negative positions: succeeds exactly when all the values are there and can be transformed, with the list that
has them in place. -/
theorem loop_replaced {s : Wrapper} (h : s.Ok) (h0 : ∀ k ∈ s.nums, 0 ≤ k)
    (ht : ∀ k p f, Spec.Targets s k p f → ∃ a v, args[k.toNat]? = some a ∧ tr p f a = .ok v) :
    ∃ T, inputLoop tr args s.sorted 0 [] = .ok T ∧ Spec.Replaced tr s args T := by
  obtain ⟨T, h1, h2, h3⟩ := exists_replaced (tr := tr) (args := args) h Int.toNat
    (fun k hk k' hk' e => by have := h0 k hk; have := h0 k' hk'; omega) ht
  refine ⟨T, ?_, h1, fun k p f hk => ?_, fun j hj => h3 j fun k hk e => ?_⟩
  · have hs := sorted_sorted h
    have hmem : ∀ it ∈ s.sorted, Spec.Targets s it.1 it.2.1 it.2.2 := fun it hit =>
      (mem_items h).mp ((sorted_perm h).mem_iff.mp hit)
    have := inputLoop_ok (tr := tr) h1 s.sorted 0 0 (by simp [clip]) (Nat.zero_le _) ?_ ?_ ?_
    · simpa using this
    · refine hs.imp_of_mem fun {a b} ha hb hab => ?_
      have ha := h0 _ (target_mem (hmem a ha))
      have hb := h0 _ (target_mem (hmem b hb))
      rw [pos_nonneg ha, pos_nonneg hb]; omega
    · intro it hit
      have hk := hmem it hit
      have hk0 := h0 _ (target_mem hk)
      obtain ⟨a, v, ha, hv, hT⟩ := h2 _ _ _ hk
      have hl := (List.getElem?_eq_some_iff.mp ha).1
      rw [pos_nonneg hk0]
      exact ⟨by omega, by omega, by omega, Nat.zero_le _, a, v, ha, hv, hT⟩
    · intro j _ hj
      refine h3 j fun k hk e => ?_
      obtain ⟨p, f, hkt⟩ := exists_target h hk
      have hit := (sorted_perm h).mem_iff.mpr ((mem_items h).mpr hkt)
      refine hj _ hit ?_
      simp only [pos_nonneg (h0 k hk)]; exact e
  · obtain ⟨a, v, ha, hv, hT⟩ := h2 k p f hk
    exact ⟨a, v, h0 k (target_mem hk), ha, hv, hT⟩
  · have := h0 k hk
    exact hj (by rw [← e, Int.toNat_of_nonneg this]; exact hk)

theorem loop_imp {s : Wrapper} (h : s.Ok) {R : List (Arg X)} (hR : inputLoop tr args s.sorted 0 [] = .ok R) {k p f}
    (hk : Spec.Targets s k p f) : ∃ a v, pyGet args k = .ok a ∧ tr p f a = .ok v :=
  inputLoop_imp _ _ _ _ hR _ ((sorted_perm h).mem_iff.mpr ((mem_items h).mpr hk))

end

/-! ### Negative positions -/

section
variable {X : Type} {tr : Pattern → Option Bool → Arg X → Except Err (Arg X)} {args : List (Arg X)}

theorem length_pySlice {α : Type} (l : List α) (a b : ℤ) : (pySlice l a b).length = min (clip l.length b) l.length - clip l.length a := by
  simp [pySlice]

/-- The loop never loses an argument: the result is at least as long as what is still to come. -/
theorem inputLoop_length (items : List (ℤ × Pattern × Option Bool)) : ∀ (last : ℤ) (acc R : List (Arg X)),
    0 ≤ last → last ≤ args.length → items.Pairwise (fun a b => a.1 < b.1) → (∀ it ∈ items, last ≤ it.1) →
    inputLoop tr args items last acc = .ok R → R.length = acc.length + (args.length - last.toNat) := by
  induction items with
  | nil =>
    intro last acc R h0 h1 _ _ h
    rw [inputLoop] at h
    cases h
    rw [List.length_append, length_pySlice]
    unfold clip; split <;> split <;> omega
  | cons it items ih =>
    obtain ⟨k, p, f⟩ := it
    intro last acc R h0 h1 hs hk h
    rw [inputLoop] at h
    obtain ⟨a, ha, h⟩ := bind_ok h
    obtain ⟨v, hv, h⟩ := bind_ok h
    obtain ⟨-, g2, -⟩ := pyGet_ok ha
    have hk' := hk _ (List.mem_cons_self ..)
    simp only at hk'
    rw [List.pairwise_cons] at hs
    have := ih (k + 1) _ R (by omega) (by omega) hs.2 (fun it hit => by have := hs.1 it hit; simp only at this; omega) h
    rw [this, List.length_append, List.length_append, length_pySlice, List.length_singleton]
    unfold clip; split <;> split <;> omega

/-- After the negative positions: `last` is at most 0, and as many values are in place as the last position says. -/
theorem inputLoop_neg (items : List (ℤ × Pattern × Option Bool)) : ∀ (last : ℤ) (acc R : List (Arg X)),
    -(args.length : ℤ) < last → last ≤ 0 → acc.length = (last + args.length).toNat → items.Pairwise (fun a b => a.1 < b.1) →
    (∀ it ∈ items, last ≤ it.1) → (last = 0 ∨ (∃ it ∈ items, it.1 = -1) ∨
      ∃ it ∈ items, 0 ≤ it.1 ∧ (it.1 < last + args.length ∨ ∃ it' ∈ items, it'.1 < 0 ∧ it.1 ≤ it'.1 + args.length)) →
    inputLoop tr args items last acc = .ok R → args.length < R.length := by
  induction items with
  | nil =>
    rintro last acc R h0 h1 ha _ _ (rfl | ⟨it, hit, _⟩ | ⟨it, hit, _⟩) h
    · have := inputLoop_length (tr := tr) (args := args) [] 0 acc R le_rfl (by omega) .nil (by simp) h
      rw [this, ha]
      simp only [Int.toNat_zero, zero_add, Int.toNat_natCast]; omega
    · cases hit
    · cases hit
  | cons it items ih =>
    obtain ⟨k, p, f⟩ := it
    intro last acc R h0 h1 ha hs hl hbad h
    by_cases hz : last = 0
    · subst hz
      have := inputLoop_length (tr := tr) _ 0 acc R le_rfl (by omega) hs hl h
      rw [this, ha]
      simp only [Int.toNat_zero, zero_add, Int.toNat_natCast]; omega
    · rw [List.pairwise_cons] at hs
      have hk := hl _ (List.mem_cons_self ..)
      simp only at hk
      rw [inputLoop] at h
      obtain ⟨a, hga, h⟩ := bind_ok h
      obtain ⟨v, hv, h⟩ := bind_ok h
      obtain ⟨g1, g2, -⟩ := pyGet_ok hga
      have hrest : ∀ it ∈ items, k + 1 ≤ it.1 := fun it hit => by
        have := hs.1 it hit; simp only at this; omega
      by_cases hkn : k < 0
      · refine ih (k + 1) _ R (by omega) (by omega) ?_ hs.2 hrest ?_ h
        · rw [List.length_append, List.length_append, length_pySlice, List.length_singleton, ha]
          unfold clip; split <;> split <;> omega
        · rcases hbad with hb | ⟨it, hit, hb⟩ | ⟨it, hit, hb, hb'⟩
          · exact absurd hb hz
          · rw [List.mem_cons] at hit
            rcases hit with rfl | hit
            · simp only at hb; left; omega
            · exact .inr (.inl ⟨it, hit, hb⟩)
          · rw [List.mem_cons] at hit
            rcases hit with rfl | hit
            · simp only at hb; omega
            · refine .inr (.inr ⟨it, hit, hb, ?_⟩)
              rcases hb' with hb' | ⟨it', hit', c1, c2⟩
              · left; omega
              · rw [List.mem_cons] at hit'
                rcases hit' with rfl | hit'
                · simp only at c2; left; omega
                · exact .inr ⟨it', hit', c1, c2⟩
      · have := inputLoop_length (tr := tr) _ (k + 1) _ R (by omega) (by omega) hs.2 hrest h
        rw [this, List.length_append, List.length_append, length_pySlice, List.length_singleton, ha]
        have hbound : ∃ it ∈ (k, p, f) :: items, 0 ≤ it.1 ∧ it.1 < last + args.length := by
          rcases hbad with hb | ⟨it, hit, hb⟩ | ⟨it, hit, hb, hb'⟩
          · exact absurd hb hz
          · rw [List.mem_cons] at hit
            rcases hit with rfl | hit
            · simp only at hb; omega
            · have := hrest it hit; omega
          · refine ⟨it, hit, hb, ?_⟩
            rcases hb' with hb' | ⟨it', hit', c1, c2⟩
            · exact hb'
            · rw [List.mem_cons] at hit'
              rcases hit' with rfl | hit'
              · simp only at c1; omega
              · have := hrest it' hit'; omega
        obtain ⟨it, hit, c1, c2⟩ := hbound
        have : k ≤ it.1 := by
          rw [List.mem_cons] at hit
          rcases hit with rfl | hit
          · exact le_rfl
          · have := hrest it hit; omega
        have hlt : k < last + args.length := by omega
        clear hbad hrest hl hs ih c1 c2 this hit it h hga hv ha
        unfold clip; split <;> split <;> omega

end

/-! ### Wrappers as constructed -/

theorem numList_getElem? (n : Nat) (A : Option (NDArray ℤ)) (i : Nat) (k : ℤ) (hi : i < n) : (numList n A)[i]? = some k ↔
    match A with
    | none => k = i
    | some a => a.data[i]? = some k := by
  cases A with
  | none => simp [numList, List.getElem?_map, List.getElem?_range hi, eq_comm]
  | some a => rfl

theorem good_iff {P : NDArray Pattern} {F : NDArray (Option Bool)} {A : Option (NDArray ℤ)} :
    Spec.GoodArguments P F A ↔ (P.ndim ≤ 1 ∧ ∀ a, A = some a → a.ndim ≤ 1) ∧
      (F.shape = [] ∨ F.shape = [1] ∨ F.shape = [P.data.length]) ∧ (numList P.data.length A).Nodup ∧
      (numList P.data.length A).length = P.data.length := by
  cases A with
  | none =>
    have h1 : ((List.range P.data.length).map Int.ofNat).Nodup :=
      List.nodup_range.map (fun a b h => by simpa using h)
    simp [Spec.GoodArguments, numList] at h1 ⊢
    intros; exact h1
  | some a =>
    simp only [Spec.GoodArguments, Option.some.injEq, forall_eq', numList]
    tauto

theorem construct_iff {P : NDArray Pattern} {F : NDArray (Option Bool)} {flat : Bool} {A : Option (NDArray ℤ)} (hP : P.WF)
    (hA : ∀ a, A = some a → a.WF) :
    (Spec.GoodArguments P F A →
      construct P F flat A = .ok ⟨P.data, broadcastData F [P.data.length], numList P.data.length A, flat⟩) ∧
    (¬ Spec.GoodArguments P F A → ∃ msg, construct P F flat A = .error (.valueError msg)) := by
  rw [good_iff]
  by_cases h1 : P.ndim ≤ 1 ∧ ∀ a, A = some a → a.ndim ≤ 1
  · rw [construct_vec hP hA h1.1 h1.2]
    refine ⟨fun h => ?_, fun h => ?_⟩
    · rw [if_neg (not_not.mpr h.2.1), if_neg (not_not.mpr h.2.2.1), if_neg (not_not.mpr h.2.2.2)]
    · by_cases c1 : F.shape = [] ∨ F.shape = [1] ∨ F.shape = [P.data.length]
      · rw [if_neg (not_not.mpr c1)]
        by_cases c2 : (numList P.data.length A).Nodup
        · rw [if_neg (not_not.mpr c2)]
          by_cases c3 : (numList P.data.length A).length = P.data.length
          · exact absurd ⟨h1, c1, c2, c3⟩ h
          · rw [if_pos c3]; exact ⟨_, rfl⟩
        · rw [if_pos c2]; exact ⟨_, rfl⟩
      · rw [if_pos c1]; exact ⟨_, rfl⟩
  · refine ⟨fun h => absurd h.1 h1, fun _ => construct_bad ?_ hP⟩
    by_cases hp : P.ndim ≤ 1
    · right
      have := not_and.mp h1 hp
      push Not at this
      obtain ⟨a, e, ha⟩ := this
      exact ⟨a, e, by omega⟩
    · exact .inl hp

theorem constructed_ok {s : Wrapper} (h : Spec.Constructed s) : s.Ok := by
  obtain ⟨P, F, flat, A, hP, hF, hA, h⟩ := h
  by_cases hg : Spec.GoodArguments P F A
  · rw [(construct_iff hP hA).1 hg] at h
    cases h
    rw [good_iff] at hg
    exact ⟨hg.2.2.2, (broadcastData_vec hF hg.2.1).1, hg.2.2.1⟩
  · obtain ⟨msg, e⟩ := (construct_iff (flat := flat) hP hA).2 hg
    rw [e] at h; cases h

theorem sorted_eq_of_targets {s t : Wrapper} (hs : s.Ok) (ht : t.Ok)
    (h : ∀ k p f, Spec.Targets s k p f ↔ Spec.Targets t k p f) : s.items.Perm t.items := by
  have nd : ∀ {s : Wrapper}, s.Ok → s.items.Nodup := fun {s} hs => by
    refine List.Nodup.of_map (·.1) ?_
    rw [map_fst_items hs]; exact hs.nodup
  rw [List.perm_ext_iff_of_nodup (nd hs) (nd ht)]
  rintro ⟨k, p, f⟩
  rw [mem_items hs, mem_items ht]; exact h k p f

section
variable {X : Type}

theorem transformRet_perm {s t : Wrapper} (hs : s.Ok) (ht : t.Ok) (hflat : s.originalIsFlat = t.originalIsFlat)
    (h : s.items.Perm t.items) (named : Bool) (r : Ret X) : transformRet s named r = transformRet t named r := by
  cases r with
  | tuple rets => simp only [transformRet, sorted_unique hs ht h, hflat]
  | single a =>
    have hl : s.nums.length = t.nums.length := by rw [← length_items hs, ← length_items ht, h.length_eq]
    match e1 : s.nums, e2 : t.nums with
    | [], [] => simp only [transformRet, e1, e2]
    | [], _ :: _ => simp [e1, e2] at hl
    | _ :: _, [] => simp [e1, e2] at hl
    | [_], _ :: _ :: _ => simp [e1, e2] at hl
    | _ :: _ :: _, [_] => simp [e1, e2] at hl
    | _ :: _ :: _, _ :: _ :: _ => simp only [transformRet, e1, e2]
    | [k], [k'] =>
      have h1 : s.items.length = 1 := by rw [length_items hs, e1]; rfl
      obtain ⟨x, hx⟩ := List.length_eq_one_iff.mp h1
      rw [hx] at h
      have hy := List.singleton_perm.mp h
      have g : ∀ w : Wrapper, w.Ok → w.nums.length = 1 → w.items = [x] → w.nums = [x.1] ∧ w.patterns[0]? = some x.2.1 ∧ w.free[0]? = some x.2.2 := by
        intro w hw h1 hi
        obtain ⟨ps, fs, ns, fl⟩ := w
        obtain ⟨l1, l2, -⟩ := hw
        simp only at l1 l2 h1
        rw [h1] at l1; rw [← l1] at l2
        obtain ⟨a, rfl⟩ := List.length_eq_one_iff.mp h1
        obtain ⟨b, rfl⟩ := List.length_eq_one_iff.mp l1.symm
        obtain ⟨c, rfl⟩ := List.length_eq_one_iff.mp l2
        simp only [Wrapper.items, List.zip_cons_cons, List.zip_nil_left, List.cons.injEq, and_true] at hi
        subst hi
        exact ⟨rfl, rfl, rfl⟩
      obtain ⟨a1, a2, a3⟩ := g s hs (by rw [e1]; rfl) hx
      obtain ⟨b1, b2, b3⟩ := g t ht (by rw [e2]; rfl) hy.symm
      simp only [transformRet, a1, a2, a3, b1, b2, b3, hflat]

theorem newArgs_perm {s t : Wrapper} (hs : s.Ok) (ht : t.Ok) (hflat : s.originalIsFlat = t.originalIsFlat)
    (h : s.items.Perm t.items) (args : List (Arg X)) : newArgs s args = newArgs t args := by
  rw [newArgs, newArgs, sorted_unique hs ht h, hflat]

theorem inputTr_eq (s : Wrapper) : (if s.originalIsFlat then flattenArg else foldArg) = (Spec.inputTr s : _ → _ → Arg X → _) := rfl
theorem outputTr_eq (s : Wrapper) : (if s.originalIsFlat then foldArg else flattenArg) = (Spec.outputTr s : _ → _ → Arg X → _) := rfl

theorem callInput_of {s : Wrapper} {args new : List (Arg X)} (h : newArgs s args = .ok new) (f : Fn X) (kw : Kwargs X) :
    callInput s f args kw = f.call new kw := by
  rw [callInput, h]; rfl

theorem callInput_error {s : Wrapper} {args : List (Arg X)} {e : Err} (h : newArgs s args = .error e) (f : Fn X) (kw : Kwargs X) :
    callInput s f args kw = .error e := by
  rw [callInput, h]; rfl

/-- `Replaced` determines the new list. -/
theorem replaced_unique {tr : Pattern → Option Bool → Arg X → Except Err (Arg X)} {s : Wrapper} (hs : s.Ok)
    {old new new' : List (Arg X)} (h : Spec.Replaced tr s old new) (h' : Spec.Replaced tr s old new') : new = new' := by
  apply List.ext_getElem?
  intro j
  by_cases hj : (j : ℤ) ∈ s.nums
  · obtain ⟨p, f, ht⟩ := exists_target hs hj
    obtain ⟨a, v, _, e1, e2, e3⟩ := h.2.1 _ _ _ ht
    obtain ⟨a', v', _, e1', e2', e3'⟩ := h'.2.1 _ _ _ ht
    simp only [Int.toNat_natCast] at e1 e1' e3 e3'
    cases e1.symm.trans e1'
    cases e2.symm.trans e2'
    rw [e3, e3']
  · rw [h.2.2 j hj, h'.2.2 j hj]

end

section
variable {X : Type} {tr tr' : Pattern → Option Bool → Arg X → Except Err (Arg X)} {args : List (Arg X)}

theorem pyIndex_pos {n : Nat} {k : ℤ} (h : 0 ≤ Spec.pyIndex n k) : (Spec.pyIndex n k).toNat = pos n k ∧ Spec.pyIndex n k = (pos n k : ℤ) := by
  have e : pos n k = (Spec.pyIndex n k).toNat := by unfold pos Spec.pyIndex; split <;> rfl
  rw [e]
  exact ⟨rfl, (Int.toNat_of_nonneg h).symm⟩

theorem loop_replacedPy {s : Wrapper} (h : s.Ok) (hg : Spec.GoodNegatives args.length s.nums)
    (ht : ∀ k p fr, Spec.Targets s k p fr → ∃ a v, 0 ≤ Spec.pyIndex args.length k ∧
      args[(Spec.pyIndex args.length k).toNat]? = some a ∧ tr p fr a = .ok v) :
    ∃ T, inputLoop tr args s.sorted 0 [] = .ok T ∧ Spec.ReplacedPy tr s args T := by
  have hr : ∀ k ∈ s.nums, 0 ≤ Spec.pyIndex args.length k ∧ -(args.length : ℤ) ≤ k ∧ k < args.length := by
    intro k hk
    obtain ⟨p, fr, hkt⟩ := exists_target h hk
    obtain ⟨a, v, h1, h2, -⟩ := ht k p fr hkt
    have hl := (List.getElem?_eq_some_iff.mp h2).1
    refine ⟨h1, ?_⟩
    unfold Spec.pyIndex at h1 hl
    split at h1 <;> simp_all <;> omega
  have mono : ∀ k ∈ s.nums, ∀ k' ∈ s.nums, k < k' → pos args.length k < pos args.length k' := by
    intro k hk k' hk' hlt
    have h1 := (hr k hk).2
    have h2 := (hr k' hk').2
    have h3 := hg.2 k hk k' hk'
    unfold pos
    split <;> split <;> omega
  obtain ⟨T, h1, h2, h3⟩ := exists_replaced (tr := tr) (args := args) h (pos args.length)
    (fun k hk k' hk' e => by
      rcases lt_trichotomy k k' with c | c | c
      · have := mono k hk k' hk' c; omega
      · exact c
      · have := mono k' hk' k hk c; omega)
    (fun k p f hk => by
      obtain ⟨a, v, h1, h2, h3⟩ := ht k p f hk
      rw [(pyIndex_pos h1).1] at h2
      exact ⟨a, v, h2, h3⟩)
  have hmem : ∀ it ∈ s.sorted, Spec.Targets s it.1 it.2.1 it.2.2 := fun it hit =>
    (mem_items h).mp ((sorted_perm h).mem_iff.mp hit)
  refine ⟨T, ?_, h1, fun k p f hk => ?_, fun j hj => h3 j fun k hk e => ?_⟩
  · have := inputLoop_ok (tr := tr) h1 s.sorted 0 0 (by simp [clip]) (Nat.zero_le _) ?_ ?_ ?_
    · simpa using this
    · exact (sorted_sorted h).imp_of_mem fun {a b} ha hb hab =>
        mono _ (target_mem (hmem a ha)) _ (target_mem (hmem b hb)) hab
    · intro it hit
      have hk := hmem it hit
      obtain ⟨a, v, ha, hv, hT⟩ := h2 _ _ _ hk
      have := hr _ (target_mem hk)
      exact ⟨fun e => hg.1 (e ▸ target_mem hk), this.2.1, this.2.2, Nat.zero_le _, a, v, ha, hv, hT⟩
    · intro j _ hj
      refine h3 j fun k hk e => ?_
      obtain ⟨p, f, hkt⟩ := exists_target h hk
      exact hj _ ((sorted_perm h).mem_iff.mpr ((mem_items h).mpr hkt)) e
  · obtain ⟨a, v, ha, hv, hT⟩ := h2 k p f hk
    have := (hr _ (target_mem hk)).1
    rw [(pyIndex_pos this).1]
    exact ⟨a, v, this, ha, hv, hT⟩
  · refine hj k hk ?_
    rw [(pyIndex_pos (hr k hk).1).2, e]

theorem loop_too_many {s : Wrapper} (h : s.Ok) (hg : ¬ Spec.GoodNegatives args.length s.nums) {R : List (Arg X)}
    (hR : inputLoop tr args s.sorted 0 [] = .ok R) : args.length < R.length := by
  have hbad : (∃ it ∈ s.sorted, it.1 = -1) ∨ ∃ it ∈ s.sorted, ∃ it' ∈ s.sorted, it'.1 < 0 ∧ 0 ≤ it.1 ∧ it.1 ≤ it'.1 + args.length := by
    have hmem : ∀ k ∈ s.nums, ∃ it ∈ s.sorted, it.1 = k := fun k hk => by
      obtain ⟨p, f, hkt⟩ := exists_target h hk
      exact ⟨_, (sorted_perm h).mem_iff.mpr ((mem_items h).mpr hkt), rfl⟩
    by_cases c : -1 ∈ s.nums
    · exact .inl (hmem _ c)
    · right
      have : ¬ ∀ k ∈ s.nums, ∀ k' ∈ s.nums, k < 0 → 0 ≤ k' → k + args.length < k' := fun h' => hg ⟨c, h'⟩
      push Not at this
      obtain ⟨k, hk, k', hk', h1, h2, h3⟩ := this
      obtain ⟨it, hit, rfl⟩ := hmem k' hk'
      obtain ⟨it', hit', rfl⟩ := hmem k hk
      exact ⟨it, hit, it', hit', h1, h2, h3⟩
  have hsort := sorted_sorted h
  have himp := inputLoop_imp _ _ _ _ hR
  generalize s.sorted = items at *
  match items with
  | [] => rcases hbad with ⟨it, hit, _⟩ | ⟨it, hit, _⟩ <;> cases hit
  | (k, p, f) :: rest =>
    rw [List.pairwise_cons] at hsort
    have hneg : k < 0 := by
      rcases hbad with ⟨it, hit, e⟩ | ⟨-, -, it, hit, e, -⟩ <;> rw [List.mem_cons] at hit <;> rcases hit with rfl | hit
      · simp only at e; omega
      · have := hsort.1 it hit; simp only at this; omega
      · simpa using e
      · have := hsort.1 it hit; simp only at this; omega
    rw [inputLoop] at hR
    obtain ⟨a, ha, hR⟩ := bind_ok hR
    obtain ⟨v, hv, hR⟩ := bind_ok hR
    obtain ⟨g1, g2, -⟩ := pyGet_ok ha
    refine inputLoop_neg (tr := tr) rest (k + 1) _ R (by omega) (by omega) ?_ hsort.2
      (fun it hit => by have := hsort.1 it hit; simp only at this; omega) ?_ hR
    · rw [List.nil_append, List.length_append, length_pySlice, List.length_singleton]
      unfold clip; split <;> split <;> omega
    · rcases hbad with ⟨it, hit, e⟩ | ⟨it, hit, it', hit', e1, e2, e3⟩
      · rw [List.mem_cons] at hit
        rcases hit with rfl | hit
        · simp only at e; left; omega
        · exact .inr (.inl ⟨it, hit, e⟩)
      · rw [List.mem_cons] at hit hit'
        rcases hit with rfl | hit
        · simp only at e2; omega
        · refine .inr (.inr ⟨it, hit, e2, ?_⟩)
          rcases hit' with rfl | hit'
          · simp only at e3; left; omega
          · exact .inr ⟨it', hit', e1, e3⟩

/-- Replacing and replacing back. -/
theorem replaced_back {s t : Wrapper} (hs : s.Ok) (ht : t.Ok) (hs0 : ∀ k ∈ s.nums, 0 ≤ k) (ht0 : ∀ k ∈ t.nums, 0 ≤ k)
    (h : ∀ k p fr, Spec.Targets s k p fr ↔ Spec.Targets t k p fr)
    (hv : ∀ k p fr, Spec.Targets s k p fr → ∃ a v, args[k.toNat]? = some a ∧ tr p fr a = .ok v ∧ tr' p fr v = .ok a) :
    ∃ T, inputLoop tr args s.sorted 0 [] = .ok T ∧ T.length = args.length ∧ inputLoop tr' T t.sorted 0 [] = .ok args := by
  obtain ⟨T, h1, h2⟩ := loop_replaced (tr := tr) (args := args) hs hs0 (fun k p f hk => by
    obtain ⟨a, v, h1, h2, -⟩ := hv k p f hk; exact ⟨a, v, h1, h2⟩)
  have hT : ∀ k p fr, Spec.Targets t k p fr → ∃ a v, args[k.toNat]? = some a ∧ T[k.toNat]? = some v ∧ tr' p fr v = .ok a := by
    intro k p fr hk
    rw [← h] at hk
    obtain ⟨a, v, e1, e2, e3⟩ := hv k p fr hk
    obtain ⟨a', v', -, e1', e2', e3'⟩ := h2.2.1 k p fr hk
    cases e1.symm.trans e1'
    cases e2.symm.trans e2'
    exact ⟨a, v, e1, e3', e3⟩
  obtain ⟨T', h3, h4⟩ := loop_replaced (tr := tr') (args := T) ht ht0 (fun k p f hk => by
    obtain ⟨a, v, -, h1, h2⟩ := hT k p f hk; exact ⟨v, a, h1, h2⟩)
  refine ⟨T, h1, h2.1, ?_⟩
  rw [h3]
  congr 1
  apply List.ext_getElem?
  intro j
  by_cases hj : (j : ℤ) ∈ t.nums
  · obtain ⟨p, fr, hk⟩ := exists_target ht hj
    obtain ⟨a, v, e1, e2, e3⟩ := hT _ _ _ hk
    obtain ⟨v', a', -, e1', e2', e3'⟩ := h4.2.1 _ _ _ hk
    cases e2.symm.trans e1'
    cases e3.symm.trans e2'
    simp only [Int.toNat_natCast] at e3' e1
    rw [e3', e1]
  · have hj' : (j : ℤ) ∉ s.nums := fun h' => by
      obtain ⟨p, fr, hk⟩ := exists_target hs h'
      exact hj (target_mem ((h _ _ _).mp hk))
    rw [h4.2.2 j hj, h2.2.2 j hj']

theorem inverse_call {s t : Wrapper} (hs : s.Ok) (ht : t.Ok) (e1 : Spec.inputTr s = tr) (e2 : Spec.inputTr t = tr')
    (hs0 : ∀ k ∈ s.nums, 0 ≤ k) (ht0 : ∀ k ∈ t.nums, 0 ≤ k)
    (h : ∀ k p fr, Spec.Targets s k p fr ↔ Spec.Targets t k p fr)
    (hv : ∀ k p fr, Spec.Targets s k p fr → ∃ a v, args[k.toNat]? = some a ∧ tr p fr a = .ok v ∧ tr' p fr v = .ok a) (f : Fn X) (kw : Kwargs X) :
    (wrapInput s (wrapInput t f)).call args kw = f.call args kw := by
  obtain ⟨T, h1, -, h2⟩ := replaced_back hs ht hs0 ht0 h hv
  have g1 : newArgs s args = .ok T := by rw [newArgs, inputTr_eq, e1]; exact h1
  have g2 : newArgs t T = .ok args := by rw [newArgs, inputTr_eq, e2]; exact h2
  change callInput s (wrapInput t f) args kw = _
  rw [callInput_of g1]
  change callInput t f T kw = _
  rw [callInput_of g2]

theorem inverse_both {s t : Wrapper} (hs : s.Ok) (ht : t.Ok) (e1 : Spec.inputTr s = tr) (e2 : Spec.inputTr t = tr')
    (hs0 : ∀ k ∈ s.nums, 0 ≤ k) (ht0 : ∀ k ∈ t.nums, 0 ≤ k)
    (h : ∀ k p fr, Spec.Targets s k p fr ↔ Spec.Targets t k p fr)
    (hv : ∀ k p fr, Spec.Targets s k p fr → ∃ a v, args[k.toNat]? = some a ∧ tr p fr a = .ok v ∧ tr' p fr v = .ok a) (f : Fn X) (w w' : Wrapper) (kw : Kwargs X) :
    (wrapInput s (wrapOutput w (wrapInput t (wrapOutput w' f)))).call args kw = (wrapOutput w (wrapOutput w' f)).call args kw := by
  obtain ⟨T, h1, -, h2⟩ := replaced_back hs ht hs0 ht0 h hv
  have g1 : newArgs s args = .ok T := by rw [newArgs, inputTr_eq, e1]; exact h1
  have g2 : newArgs t T = .ok args := by rw [newArgs, inputTr_eq, e2]; exact h2
  change callInput s _ args kw = _
  rw [callInput_of g1]
  change callOutput w _ T kw = callOutput w _ args kw
  rw [callOutput, callOutput]
  change (callInput t _ T kw >>= _) = _
  rw [callInput_of g2]
  rfl

theorem transformRet_single {s : Wrapper} (hs : s.Ok) {p : Pattern} {fr : Option Bool} (h0 : ∀ k p fr, Spec.Targets s k p fr → k = 0)
    (h : Spec.Targets s 0 p fr) (named : Bool) (a : Arg X) :
    transformRet s named (.single a) = (Spec.outputTr s p fr a).map .single := by
  have hn : s.nums = [0] := by
    have hall : ∀ k ∈ s.nums, k = 0 := fun k hk => by
      obtain ⟨p, fr, h⟩ := exists_target hs hk; exact h0 k p fr h
    have hmem := target_mem h
    have hnd := hs.nodup
    match e : s.nums with
    | [] => rw [e] at hmem; cases hmem
    | [k] => rw [hall k (by simp [e])]
    | k :: k' :: r =>
      rw [e] at hnd hall
      have a1 := hall k (by simp)
      have a2 := hall k' (by simp)
      simp [a1, a2] at hnd
  obtain ⟨i, h1, h2, h3⟩ := h
  obtain rfl : i = 0 := by
    rw [hn] at h1
    have := (List.getElem?_eq_some_iff.mp h1).1
    simpa using this
  simp only [transformRet, outputTr_eq, hn, h2, h3, ne_eq, not_true, if_false]
  cases Spec.outputTr s p fr a <;> rfl

theorem inverse_output {s t : Wrapper} (hs : s.Ok) (ht : t.Ok) (e1 : Spec.outputTr s = tr) (e2 : Spec.outputTr t = tr')
    (h : ∀ k p fr, Spec.Targets s k p fr ↔ Spec.Targets t k p fr) (f : Fn X) (args : List (Arg X)) (kw : Kwargs X)
    (hv : ∀ r, f.call args kw = .ok r → match r with
      | .single a => (∀ k p fr, Spec.Targets s k p fr → k = 0 ∧ ∃ v, tr p fr a = .ok v ∧ tr' p fr v = .ok a) ∧ ∃ p fr, Spec.Targets s 0 p fr
      | .tuple rets => ∀ k p fr, Spec.Targets s k p fr → ∃ a, 0 ≤ k ∧ rets[k.toNat]? = some a ∧ ∃ v, tr p fr a = .ok v ∧ tr' p fr v = .ok a) :
    (wrapOutput t (wrapOutput s f)).call args kw = f.call args kw := by
  change callOutput t (wrapOutput s f) args kw = _
  rw [callOutput]
  change (callOutput s f args kw >>= _) = _
  rw [callOutput]
  cases hr : f.call args kw with
  | error e => rfl
  | ok r =>
    have := hv r hr
    simp only [bind, Except.bind]
    cases r with
    | single a =>
      obtain ⟨h1, p, fr, h2⟩ := this
      obtain ⟨-, v, h3, h4⟩ := h1 _ _ _ h2
      rw [transformRet_single hs (fun k p fr hk => (h1 k p fr hk).1) h2, e1, h3]
      simp only [Except.map]
      rw [transformRet_single ht (fun k p fr hk => (h1 k p fr ((h _ _ _).mpr hk)).1) ((h _ _ _).mp h2), e2, h4]
      rfl
    | tuple rets =>
      have n0 : ∀ k ∈ s.nums, 0 ≤ k := fun k hk => by
        obtain ⟨p, fr, hk⟩ := exists_target hs hk
        obtain ⟨a, h0, -⟩ := this _ _ _ hk
        exact h0
      have n0' : ∀ k ∈ t.nums, 0 ≤ k := fun k hk => by
        obtain ⟨p, fr, hk⟩ := exists_target ht hk
        exact n0 k (target_mem ((h _ _ _).mpr hk))
      obtain ⟨T, h1, hl, h2⟩ := replaced_back (tr := tr) (tr' := tr') (args := rets) hs ht n0 n0' h (fun k p fr hk => by
        obtain ⟨a, -, h1, v, h2, h3⟩ := this k p fr hk
        exact ⟨a, v, h1, h2, h3⟩)
      have hlt : ∀ k ∈ s.nums, k < rets.length := fun k hk => by
        obtain ⟨p, fr, hkt⟩ := exists_target hs hk
        obtain ⟨a, h0, h1, -⟩ := this _ _ _ hkt
        have := (List.getElem?_eq_some_iff.mp h1).1
        omega
      have g1 : transformRet s f.named (.tuple rets) = .ok (.tuple T) := by
        simp only [transformRet, outputTr_eq, e1]
        rw [outputLoop_eq, h1]; · rfl
        exact fun it hit => hlt _ (target_mem ((mem_items hs).mp ((sorted_perm hs).mem_iff.mp hit)))
      have g2 : transformRet t (wrapOutput s f).named (.tuple T) = .ok (.tuple rets) := by
        simp only [transformRet, outputTr_eq, e2]
        rw [outputLoop_eq, h2]; · rfl
        intro it hit
        have := target_mem ((h _ _ _).mpr ((mem_items ht).mp ((sorted_perm ht).mem_iff.mp hit)))
        have := hlt _ this
        omega
      rw [g1]; exact g2

end

end FunctionPatterns

end Paragami
