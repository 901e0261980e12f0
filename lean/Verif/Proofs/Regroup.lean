import Verif.Proofs.FreeVal
import Verif.Proofs.Indices
import Verif.Spec.Regroup

/-! # Arrays of arrays -/

set_option linter.unusedSimpArgs false

namespace Paragami

namespace NDArray

/-- A chunk of a chunk is a chunk. -/
theorem chunk_chunk {α : Type _} (k n : Nat) (l : List α) {i j : Nat} (hj : j < n) :
    chunk k (chunk (n * k) l i) j = chunk k l (i * n + j) := by
  simp only [chunk, List.drop_take, List.take_take, List.drop_drop]
  have e : i * (n * k) + j * k = (i * n + j) * k := by rw [Nat.add_mul, Nat.mul_assoc]
  rw [e]
  congr 1
  have : (j + 1) * k ≤ n * k := Nat.mul_le_mul_right _ hj
  rw [Nat.succ_mul] at this
  omega

theorem flatMap_range_mul {β : Type _} (m n : Nat) (g : Nat → List β) :
    (List.range (m * n)).flatMap g = (List.range m).flatMap fun i => (List.range n).flatMap fun j => g (i * n + j) := by
  induction m with
  | zero => simp
  | succ m ih =>
    rw [Nat.succ_mul, List.range_add, List.flatMap_append, ih, List.range_succ, List.flatMap_append]
    simp [List.flatMap_map]

/-- Walking over `m * n` items is walking over `m` groups of `n`. -/
theorem forall_lt_mul {m n : Nat} {P : Nat → Prop} :
    (∀ k < m * n, P k) ↔ ∀ i < m, ∀ j < n, P (i * n + j) := by
  constructor
  · intro h i hi j hj
    apply h
    have : (i + 1) * n ≤ m * n := Nat.mul_le_mul_right _ hi
    rw [Nat.succ_mul] at this
    omega
  · intro h k hk
    have hn : 0 < n := by
      rcases Nat.eq_zero_or_pos n with rfl | h'
      · simp at hk
      · exact h'
    have h1 := h (k / n) (Nat.div_lt_of_lt_mul (by rwa [Nat.mul_comm] at hk)) (k % n) (Nat.mod_lt _ hn)
    rwa [Nat.div_add_mod'] at h1

theorem flatMap_replicate {β : Type _} (m n : Nat) (r : β) :
    (List.range m).flatMap (fun _ => List.replicate n r) = List.replicate (m * n) r := by
  induction m with
  | zero => simp
  | succ m ih => rw [List.range_succ, List.flatMap_append, ih, Nat.succ_mul]; simp

/-- Collecting the results of `m` groups of `n` items is collecting the results of the `m * n` items. -/
theorem regroup {β : Type _} {m n : Nat} {P : Nat → List β → Prop} {y : List β} :
    (∃ g : Nat → List β, (∀ i < m, ∃ g' : Nat → List β, (∀ j < n, P (i * n + j) (g' j)) ∧
      g i = (List.range n).flatMap g') ∧ y = (List.range m).flatMap g) ↔
    ∃ g : Nat → List β, (∀ k < m * n, P k (g k)) ∧ y = (List.range (m * n)).flatMap g := by
  constructor
  · rintro ⟨g, hg, rfl⟩
    have hg' : ∀ i, ∃ g' : Nat → List β, i < m → (∀ j < n, P (i * n + j) (g' j)) ∧ g i = (List.range n).flatMap g' := by
      intro i
      by_cases hi : i < m
      · obtain ⟨g', h⟩ := hg i hi
        exact ⟨g', fun _ => h⟩
      · exact ⟨fun _ => [], fun h => absurd h hi⟩
    choose G hG using hg'
    have e1 : ∀ i j, j < n → (i * n + j) / n = i := fun i j hj => by
      rw [Nat.mul_comm, Nat.mul_add_div (by omega), Nat.div_eq_of_lt hj, Nat.add_zero]
    have e2 : ∀ i j, j < n → (i * n + j) % n = j := fun i j hj => by
      rw [Nat.mul_comm, Nat.mul_add_mod, Nat.mod_eq_of_lt hj]
    refine ⟨fun k => G (k / n) (k % n), ?_, ?_⟩
    · rw [forall_lt_mul]
      intro i hi j hj
      simp only [e1 i j hj, e2 i j hj]
      exact (hG i hi).1 j hj
    · rw [flatMap_range_mul]
      apply List.flatMap_congr
      intro i hi
      rw [(hG i (List.mem_range.mp hi)).2]
      apply List.flatMap_congr
      intro j hj
      have hj := List.mem_range.mp hj
      rw [e1 i j hj, e2 i j hj]
  · rintro ⟨g, hg, rfl⟩
    rw [forall_lt_mul] at hg
    exact ⟨fun i => (List.range n).flatMap fun j => g (i * n + j), fun i hi => ⟨fun j => g (i * n + j), hg i hi, rfl⟩,
      flatMap_range_mul _ _ _⟩

end NDArray

namespace Pattern
open NDArray

/-- What folding an array of patterns does to a vector, chunk by chunk. -/
theorem foldFree_array_iff {s : List Nat} {base : Pattern} {fd} {l : List Flt} {v : Val Flt}
    (hsh : ∀ l' b, base.foldFree (vec l') = .ok (.arr b) → b.shape = base.shape ∧ b.data.length = base.shape.prod) :
    (Pattern.array s base fd).foldFree (vec l) = .ok v ↔ l.length = s.prod * base.flatLen true ∧
      ∃ g : Nat → List Flt, (∀ i < s.prod, base.foldFree (vec (chunk (base.flatLen true) l i)) = .ok (.arr ⟨base.shape, g i⟩)) ∧
        v = .arr ⟨s ++ base.shape, (List.range s.prod).flatMap g⟩ := by
  rw [foldFree_array_unfold]
  constructor
  · intro h
    obtain ⟨x, h1, h⟩ := bind_ok h
    obtain ⟨rfl, _, hlen⟩ := checkFlat_ok h1
    obtain ⟨a, h2, h⟩ := bind_ok h
    have h3 := foldItems_ok h2
    simp only [vec_atleast1d, vec_data] at h2 h3 hlen
    refine ⟨hlen, ?_⟩
    have h4 : ∀ i, ∃ d, i < s.prod → base.foldFree (vec (chunk (base.flatLen true) l i)) = .ok (.arr ⟨base.shape, d⟩) ∧
        d.length = base.shape.prod := by
      intro i
      by_cases hi : i < s.prod
      · obtain ⟨b, hb⟩ := h3 i hi
        obtain ⟨e1, e2⟩ := hsh _ _ hb
        refine ⟨b.data, fun _ => ⟨?_, e2⟩⟩
        rw [hb, ← e1]
      · exact ⟨[], fun h => absurd h hi⟩
    choose g hg using h4
    refine ⟨g, fun i hi => (hg i hi).1, ?_⟩
    have h5 := foldItems_eq (f := fun sub => base.foldFree sub) (x := vec l) (s := s) (bshape := base.shape)
      (len := base.flatLen true) (g := g) (fun i hi => (hg i hi).1) (fun i hi => (hg i hi).2)
    rw [h5] at h2
    simp only [pure, Except.pure, Except.ok.injEq] at h2 h
    rw [← h, ← h2]
  · rintro ⟨hlen, g, hg, rfl⟩
    rw [checkFlat_vec hlen]
    simp only [bind, Except.bind]
    rw [foldItems_eq (f := fun sub => base.foldFree sub) (x := vec l) (bshape := base.shape) (g := g)
      (fun i hi => hg i hi) (fun i hi => (hsh _ _ (hg i hi)).2)]
    rfl

theorem foldFree_ok_arr (p : Pattern) (hw : p.WF) (hd : p.isDict = false) : ∀ (l : List Flt) (v),
    p.foldFree (vec l) = .ok v → ∃ d, v = .arr ⟨p.shape, d⟩ ∧ d.length = p.shape.prod := by
  induction p using Pattern.ind (Q := fun _ => True) with
  | hnum c s lb ub dv fd =>
    intro l v h
    simp only [foldFree] at h
    obtain ⟨a, h1, h⟩ := bind_ok h
    rw [Numeric.foldFree_ok] at h1
    obtain ⟨_, h2, rfl⟩ := h1
    simp only [pure, Except.pure, Except.ok.injEq] at h
    exact ⟨_, h.symm, by simpa [shape] using h2⟩
  | hsim k s dv fd =>
    intro l v h
    simp only [foldFree] at h
    obtain ⟨a, h1, h⟩ := bind_ok h
    rw [Simplex.foldFree_ok] at h1
    obtain ⟨_, h2, rfl⟩ := h1
    simp only [pure, Except.pure, Except.ok.injEq] at h
    refine ⟨_, h.symm, ?_⟩
    simp only [shape]
    simp only [WF] at hw
    rw [List.length_flatMap, List.prod_append]
    have : ∀ i ∈ List.range s.prod, (constrainSimplexRow (chunk (k - 1) (vec l).data i)).length = k := by
      intro i hi
      have : (chunk (k - 1) (vec l).data i).length = k - 1 :=
        length_chunk (by rw [h2, List.prod_append]; simp) (List.mem_range.mp hi)
      simp only [constrainSimplexRow, List.length_map, List.length_cons, this]; omega
    rw [List.map_congr_left this]; simp
  | hpsd n lb dv fd =>
    intro l v h
    simp only [foldFree] at h
    obtain ⟨a, h1, h⟩ := bind_ok h
    rw [PSD.foldFree_ok] at h1
    obtain ⟨_, h2, h3⟩ := h1
    simp only [pure, Except.pure, Except.ok.injEq] at h
    simp only [unpackPosdef] at h3
    obtain ⟨ld, _, h3⟩ := bind_ok h3
    simp only [pure, Except.pure, Except.ok.injEq] at h3
    have hm : matSize (vec l).atleast1d.size = n := by
      rw [vec_atleast1d, size, h2, matSize_tri]
    rw [hm] at h3
    rw [← h3] at h
    exact ⟨_, h.symm, (length_ofFn2 n n _).trans (by simp [shape])⟩
  | harr s b fd ih =>
    intro l v h
    simp only [WF] at hw
    have ih := ih hw.2.2 hw.2.1
    have hsh : ∀ l' b', b.foldFree (vec l') = .ok (.arr b') → b'.shape = b.shape ∧ b'.data.length = b.shape.prod := by
      intro l' b' h'
      obtain ⟨d, h1, h2⟩ := ih _ _ h'
      cases h1; exact ⟨rfl, h2⟩
    rw [foldFree_array_iff hsh] at h
    obtain ⟨_, g, hg, rfl⟩ := h
    refine ⟨_, rfl, ?_⟩
    simp only [shape, List.prod_append]
    rw [List.length_flatMap, List.map_congr_left fun i hi => (hsh _ _ (hg i (List.mem_range.mp hi))).2]
    simp
  | hdict => simp [isDict] at hd
  | hnil => trivial
  | hcons => trivial

theorem foldFree_shape {p : Pattern} (hw : p.WF) (hd : p.isDict = false) (l : List Flt) (b)
    (h : p.foldFree (vec l) = .ok (.arr b)) : b.shape = p.shape ∧ b.data.length = p.shape.prod := by
  obtain ⟨d, h1, h2⟩ := foldFree_ok_arr p hw hd _ _ h
  cases h1; exact ⟨rfl, h2⟩

/-- What flattening an array of patterns does, item by item. -/
theorem flattenFree_array_iff {s : List Nat} {base : Pattern} {fd} {v : Val Flt} {vv} {x : NDArray Flt} (hw : base.WF) (hv : v.WF) :
    (Pattern.array s base fd).flattenFree v vv = .ok x ↔ 0 < s.prod ∧ ∃ a, v = .arr a ∧ a.shape = s ++ base.shape ∧
      ∃ g : Nat → List Flt, (∀ i < s.prod,
        base.flattenFree (.arr ⟨base.shape, chunk base.shape.prod a.data i⟩) vv = .ok (vec (g i))) ∧
        x = vec ((List.range s.prod).flatMap g) := by
  rw [flattenFree_array_unfold]
  have hsub : ∀ a : NDArray Flt, v = .arr a → a.shape = s ++ base.shape → ∀ i < s.prod,
      (Val.arr ⟨base.shape, chunk base.shape.prod a.data i⟩ : Val Flt).WF := by
    intro a ha hsh i hi
    subst ha
    have : a.data.length = s.prod * base.shape.prod := by
      rw [show a.data.length = a.shape.prod from hv, hsh, List.prod_append]
    exact length_chunk this hi
  constructor
  · intro h
    obtain ⟨_, h1, h⟩ := bind_ok h
    rw [requireValid_ok_iff] at h1
    have hacc : Acc (.array s base fd) v vv := h1
    rw [acc_array] at hacc
    obtain ⟨a, rfl, hsh, _⟩ := hacc
    obtain ⟨a', h2, h⟩ := bind_ok h
    cases h2
    obtain ⟨h0, h3⟩ := flattenItems_ok hsh h
    have h4 : ∀ i, ∃ d, i < s.prod →
        base.flattenFree (.arr ⟨base.shape, chunk base.shape.prod a.data i⟩) vv = .ok (vec d) := by
      intro i
      by_cases hi : i < s.prod
      · obtain ⟨y, hy⟩ := h3 i hi
        exact ⟨y.data, fun _ => by rw [hy, ← (flattenFree_ok_len base hw _ _ _ (hsub a rfl hsh i hi) hy).2.1]⟩
      · exact ⟨[], fun h => absurd h hi⟩
    choose g hg using h4
    refine ⟨h0, a, rfl, hsh, g, hg, ?_⟩
    rw [flattenItems_eq hsh (g := g) hg h0] at h
    simpa using h.symm
  · rintro ⟨h0, a, rfl, hsh, g, hg, rfl⟩
    have hacc : Acc (.array s base fd) (.arr a) vv := by
      rw [acc_array]
      exact ⟨a, rfl, hsh, fun i hi => (flattenFree_ok_len base hw _ _ _ (hsub a rfl hsh i hi) (hg i hi)).1⟩
    rw [requireValid_ok_iff.mpr hacc]
    simp only [bind, Except.bind, Val.asArr]
    exact flattenItems_eq hsh (g := g) hg h0

theorem empty_array_eq {s : List Nat} {base : Pattern} {fd} {d : List Flt} (he : base.empty = .ok (.arr ⟨base.shape, d⟩))
    (hl : d.length = base.shape.prod) :
    (Pattern.array s base fd).empty = .ok (.arr ⟨s ++ base.shape, (List.range s.prod).flatMap fun _ => d⟩) := by
  have hlen : (productRanges s).length = s.prod := by
    have := congrArg List.length (map_ravel_productRanges s)
    simpa using this
  have h := stack_reshape (s := s) (bshape := base.shape)
    (parts := (productRanges s).map fun _ => (⟨base.shape, d⟩ : NDArray Flt)) rfl (by simp [hlen])
    (by simp +contextual) (by simp +contextual [hl])
  have e : ((productRanges s).map fun _ => (⟨base.shape, d⟩ : NDArray Flt)).flatMap (·.data) =
      (List.range s.prod).flatMap fun _ => d := by
    rw [List.flatMap_map, ← hlen]
    generalize productRanges s = L
    induction L with
    | nil => rfl
    | cons a L ih => simp [List.range_succ_eq_map, List.flatMap_map, ih]
  rw [e] at h
  rw [Pattern.empty, he]
  simp only [bind, Except.bind, Val.asArr] at h ⊢
  split at h
  · simp at h
  · next st hst => rw [h]; rfl

theorem empty_ok_arr (p : Pattern) (hw : p.WF) (hd : p.isDict = false) :
    ∀ v, p.empty = .ok v → ∃ d, v = .arr ⟨p.shape, d⟩ ∧ d.length = p.shape.prod := by
  induction p using Pattern.ind (Q := fun _ => True) with
  | hnum c s lb ub dv fd =>
    intro v h
    simp only [Pattern.empty] at h
    obtain ⟨c', _, h⟩ := bind_ok h
    simp only [pure, Except.pure, Except.ok.injEq] at h
    exact ⟨_, h.symm, by simp [shape]⟩
  | hsim k s dv fd =>
    intro v h
    simp only [Pattern.empty, Except.ok.injEq] at h
    exact ⟨_, h.symm, by simp [shape]⟩
  | hpsd n lb dv fd =>
    intro v h
    simp only [Pattern.empty, Except.ok.injEq] at h
    exact ⟨_, h.symm, (length_ofFn2 n n _).trans (by simp [shape])⟩
  | harr s b fd ih =>
    intro v h
    simp only [WF] at hw
    have h0 := h
    rw [Pattern.empty] at h
    obtain ⟨vb, hb, _⟩ := bind_ok h
    obtain ⟨d, rfl, hl⟩ := ih hw.2.2 hw.2.1 _ hb
    rw [empty_array_eq hb hl] at h0
    simp only [Except.ok.injEq] at h0
    refine ⟨_, h0.symm, ?_⟩
    simp [shape, hl]
  | hdict => simp [isDict] at hd
  | hnil => trivial
  | hcons => trivial

theorem empty_array_iff {s : List Nat} {base : Pattern} {fd} {v : Val Flt} (hw : base.WF) (hd : base.isDict = false) :
    (Pattern.array s base fd).empty = .ok v ↔ ∃ d, base.empty = .ok (.arr ⟨base.shape, d⟩) ∧
      v = .arr ⟨s ++ base.shape, (List.range s.prod).flatMap fun _ => d⟩ := by
  constructor
  · intro h
    have h0 := h
    rw [Pattern.empty] at h
    obtain ⟨vb, hb, _⟩ := bind_ok h
    obtain ⟨d, rfl, hl⟩ := empty_ok_arr base hw hd _ hb
    rw [empty_array_eq hb hl] at h0
    simp only [Except.ok.injEq] at h0
    exact ⟨d, hb, h0.symm⟩
  · rintro ⟨d, hb, rfl⟩
    obtain ⟨d', h1, hl⟩ := empty_ok_arr base hw hd _ hb
    cases h1
    exact empty_array_eq hb hl

/-! ### What has to be checked -/

theorem foldNF_iff {p : Pattern} (hw : p.WF) (hd : p.isDict = false) {l : List Flt} {vv} {v : Val Flt} :
    p.foldNF (vec l) vv = .ok v ↔ l.length = p.shape.prod ∧ v = .arr ⟨p.shape, l⟩ ∧ Acc p (.arr ⟨p.shape, l⟩) vv := by
  constructor
  · intro h
    obtain ⟨h1, h2, h3⟩ := foldNF_ok_imp p hw _ _ _ h
    rw [unflat_of_not_dict hd] at h2
    subst h2
    exact ⟨by rw [← flatLen_false hd hw]; exact h1, rfl, h3⟩
  · rintro ⟨h1, rfl, h3⟩
    have := foldNF_eq p hw l vv (by rw [flatLen_false hd hw, h1])
    rw [unflat_of_not_dict hd] at this
    exact this h3

theorem acc_is_arr {α : Type} [Elem α] {p : Pattern} (hd : p.isDict = false) {v : Val α} {vv} (h : Acc p v vv) : ∃ a, v = .arr a := by
  cases v with
  | arr a => exact ⟨a, rfl⟩
  | dict d =>
    cases p with
    | dict => simp [isDict] at hd
    | numeric => rw [acc_numeric] at h; simp at h
    | simplex => rw [acc_simplex] at h; simp at h
    | psd => rw [acc_psd] at h; simp at h
    | array => rw [acc_array] at h; simp at h

theorem flattenNF_iff {p : Pattern} (hw : p.WF) (hd : p.isDict = false) {v : Val Flt} (hv : v.WF) {vv} {x : NDArray Flt} :
    p.flattenNF v vv = .ok x ↔ Acc p v vv ∧ p.NoEmpty ∧ ∃ a, v = .arr a ∧ x = vec a.data := by
  constructor
  · intro h
    obtain ⟨h1, h2⟩ := flattenNF_ok_imp p hw _ _ _ hv h
    obtain ⟨a, rfl⟩ := acc_is_arr hd h1
    rw [flattenNF_eq p hw _ _ hv h2 h1, flat_arr _ _ hd] at h
    exact ⟨h1, h2, a, rfl, by simpa using h.symm⟩
  · rintro ⟨h1, h2, a, rfl, rfl⟩
    rw [flattenNF_eq p hw _ _ hv h2 h1, flat_arr _ _ hd]

theorem sameApi_of {p q : Pattern} (hp : p.WF) (hq : q.WF) (dp : p.isDict = false) (dq : q.isDict = false)
    (hsh : p.shape = q.shape) (hlen : p.flatLen true = q.flatLen true) (hne : p.NoEmpty ↔ q.NoEmpty)
    (hacc : ∀ (v : Val Flt) vv, v.WF → (Acc p v vv ↔ Acc q v vv))
    (hfold : ∀ l v, p.foldFree (vec l) = .ok v ↔ q.foldFree (vec l) = .ok v)
    (hflat : ∀ v vv x, v.WF → (p.flattenFree v vv = .ok x ↔ q.flattenFree v vv = .ok x))
    (hso : ∀ b : Val Bool, Spec.ShapeOk p b → Spec.ShapeOk q b)
    (hmask : ∀ free (b : Val Bool), b.WF → Spec.ShapeOk p b → flatMask free p b = flatMask free q b)
    (hempty : ∀ v, p.empty = .ok v ↔ q.empty = .ok v) : Spec.SameApi p q where
  length free := by
    cases free
    · simp [flatLength, freeWithDefault, flatLen_false dp hp, flatLen_false dq hq, hsh]
    · simp [flatLength, freeWithDefault, hlen]
  fold l free vv v := by
    cases free
    · simp only [fold, freeWithDefault, bind, Except.bind, Bool.false_eq_true, if_false]
      rw [foldNF_iff hp dp, foldNF_iff hq dq, hsh]
      constructor <;> rintro ⟨h1, h2, h3⟩
      · exact ⟨h1, h2, (hacc (.arr ⟨q.shape, l⟩) vv h1).mp h3⟩
      · exact ⟨h1, h2, (hacc (.arr ⟨q.shape, l⟩) vv h1).mpr h3⟩
    · simp only [fold, freeWithDefault, bind, Except.bind, if_true]
      exact hfold l v
  flatten v hv free vv x := by
    cases free
    · simp only [flatten, freeWithDefault, bind, Except.bind, Bool.false_eq_true, if_false]
      rw [flattenNF_iff hp dp hv, flattenNF_iff hq dq hv, hacc _ _ hv, hne]
    · simp only [flatten, freeWithDefault, bind, Except.bind, if_true]
      exact hflat v vv x hv
  validate v hv vv := hacc v vv hv
  indices b hb hs free := by
    rw [flatIndices_some, flatIndices_some, flatIdx_eq free p hp b hb hs, flatIdx_eq free q hq b hb (hso b hs)]
    rw [hmask free b hb hs]
  empty := hempty

/-! ### An array of arrays of patterns -/

theorem sameApi_array {s t : List Nat} {base : Pattern} {fd1 fd2 fd3} (hw : base.WF) (hd : base.isDict = false)
    (hs : s ≠ []) (ht : t ≠ []) :
    Spec.SameApi (.array s (.array t base fd1) fd2) (.array (s ++ t) base fd3) := by
  have hin : (Pattern.array t base fd1).WF := by simp [WF, ht, hw, hd]
  have din : (Pattern.array t base fd1).isDict = false := rfl
  have hp : (s ++ t).prod = s.prod * t.prod := List.prod_append
  refine sameApi_of (by simp [WF, *]) (by simp [WF, *]) rfl rfl (by simp [shape]) ?_ ?_ ?_ ?_ ?_ ?_ ?_ ?_
  · simp [flatLen, Nat.mul_assoc]
  · simp only [NoEmpty, hp, Nat.mul_pos_iff_of_pos_left, and_assoc]
    constructor
    · rintro ⟨h1, h2, h3⟩; exact ⟨Nat.mul_pos h1 h2, h3⟩
    · rintro ⟨h1, h3⟩; exact ⟨Nat.pos_of_mul_pos_right h1, Nat.pos_of_mul_pos_left h1, h3⟩
  · intro v vv _
    simp only [acc_array, shape, Val.arr.injEq, exists_eq_left', List.append_assoc, true_and, hp]
    refine exists_congr fun a => and_congr_right fun _ => and_congr_right fun _ => ?_
    rw [forall_lt_mul]
    refine forall_congr' fun i => forall_congr' fun hi => forall_congr' fun j => forall_congr' fun hj => ?_
    rw [List.prod_append, chunk_chunk _ _ _ hj]
  · intro l v
    rw [foldFree_array_iff (foldFree_shape hin din), foldFree_array_iff (foldFree_shape hw hd)]
    simp only [foldFree_array_iff (foldFree_shape hw hd), flatLen, shape, hp, Nat.mul_assoc, Val.arr.injEq, NDArray.mk.injEq,
      true_and]
    refine and_congr_right fun hl => ?_
    cases v with
    | dict d => simp
    | arr a =>
      obtain ⟨sh, y⟩ := a
      simp only [Val.arr.injEq, NDArray.mk.injEq, List.append_assoc]
      have := regroup (m := s.prod) (n := t.prod) (y := y)
        (P := fun k d => base.foldFree (vec (chunk (base.flatLen true) l k)) = .ok (.arr ⟨base.shape, d⟩))
      constructor
      · rintro ⟨g, hg, h1, h2⟩
        have hg' : ∀ i < s.prod, ∃ g' : Nat → List Flt, (∀ j < t.prod, base.foldFree (vec (chunk (base.flatLen true) l
            (i * t.prod + j))) = .ok (.arr ⟨base.shape, g' j⟩)) ∧ g i = (List.range t.prod).flatMap g' := by
          intro i hi
          obtain ⟨_, g', h5, h6⟩ := hg i hi
          exact ⟨g', fun j hj => by rw [← h5 j hj, chunk_chunk _ _ _ hj], h6⟩
        obtain ⟨g', h3, h4⟩ := this.mp ⟨g, hg', h2⟩
        exact ⟨g', h3, h1, h4⟩
      · rintro ⟨g, hg, h1, h2⟩
        obtain ⟨g', h3, h4⟩ := this.mpr ⟨g, hg, h2⟩
        refine ⟨g', fun i hi => ?_, h1, h4⟩
        obtain ⟨g'', h5, h6⟩ := h3 i hi
        exact ⟨length_chunk hl hi, g'', fun j hj => by rw [← h5 j hj, chunk_chunk _ _ _ hj], h6⟩
  · intro v vv x hv
    rw [flattenFree_array_iff hin hv, flattenFree_array_iff hw hv]
    constructor
    · rintro ⟨h0, a, rfl, hsh, g, hg, rfl⟩
      have hlen : a.data.length = s.prod * (t ++ base.shape).prod := by
        rw [show a.data.length = a.shape.prod from hv, hsh, List.prod_append]; rfl
      have h := fun i hi => (flattenFree_array_iff (fd := fd1) hw
        (show (Val.arr ⟨t ++ base.shape, chunk (t ++ base.shape).prod a.data i⟩ : Val Flt).WF from length_chunk hlen hi)).mp (hg i hi)
      have h1 := (h 0 h0).1
      have h2 := (regroup (m := s.prod) (n := t.prod) (y := (List.range s.prod).flatMap g)
        (P := fun k d => base.flattenFree (.arr ⟨base.shape, chunk base.shape.prod a.data k⟩) vv = .ok (vec d))).mp
        ⟨g, fun i hi => ?_, rfl⟩
      · obtain ⟨g', h3, h4⟩ := h2
        exact ⟨by rw [hp]; exact Nat.mul_pos h0 h1, a, rfl, by rw [hsh]; simp [shape], g', by rwa [hp], by rw [h4, hp]⟩
      · obtain ⟨_, a', e, _, g', h3, h4⟩ := h i hi
        cases e
        refine ⟨g', fun j hj => ?_, by simpa using h4⟩
        rw [← h3 j hj]
        simp only [List.prod_append, chunk_chunk _ _ _ hj]
    · rintro ⟨h0, a, rfl, hsh, g, hg, rfl⟩
      rw [hp] at h0 hg
      have h1 := Nat.pos_of_mul_pos_right h0
      have h2 := Nat.pos_of_mul_pos_left h0
      have hlen : a.data.length = s.prod * (t ++ base.shape).prod := by
        rw [show a.data.length = a.shape.prod from hv, hsh, List.append_assoc, List.prod_append]
      obtain ⟨g', h3, h4⟩ := (regroup (m := s.prod) (n := t.prod) (y := (List.range (s.prod * t.prod)).flatMap g)
        (P := fun k d => base.flattenFree (.arr ⟨base.shape, chunk base.shape.prod a.data k⟩) vv = .ok (vec d))).mpr
        ⟨g, hg, rfl⟩
      refine ⟨h1, a, rfl, by rw [hsh]; simp [shape], g', fun i hi => ?_, by rw [hp, h4]⟩
      refine (flattenFree_array_iff hw
        (show (Val.arr ⟨t ++ base.shape, chunk (t ++ base.shape).prod a.data i⟩ : Val Flt).WF from length_chunk hlen hi)).mpr ?_
      obtain ⟨g'', h5, h6⟩ := h3 i hi
      refine ⟨h2, _, rfl, rfl, g'', fun j hj => ?_, by rw [h6]⟩
      rw [← h5 j hj]
      simp only [List.prod_append, chunk_chunk _ _ _ hj]
  · intro b h
    cases b <;> simp_all [Spec.ShapeOk, shape]
  · intro free b hb h
    cases b with
    | dict d => simp [Spec.ShapeOk] at h
    | arr a =>
      simp only [flatMask, hp, flatMap_range_mul, shape, List.prod_append]
      apply List.flatMap_congr
      intro i _
      apply List.flatMap_congr
      intro j hj
      rw [chunk_chunk _ _ _ (List.mem_range.mp hj)]
  · intro v
    rw [empty_array_iff hin din, empty_array_iff hw hd]
    simp only [empty_array_iff hw hd, Val.arr.injEq, NDArray.mk.injEq, shape, true_and, hp, flatMap_range_mul, List.append_assoc]
    constructor
    · rintro ⟨d, ⟨d', h, rfl⟩, rfl⟩; exact ⟨d', h, rfl⟩
    · rintro ⟨d, h, rfl⟩; exact ⟨_, ⟨d, h, rfl⟩, rfl⟩

/-! ### An array of numeric patterns -/

theorem forall_mem_chunks {α : Type} {n k : Nat} {l : List α} (hl : l.length = n * k) {P : α → Prop} :
    (∀ i < n, ∀ x ∈ chunk k l i, P x) ↔ ∀ x ∈ l, P x := by
  conv_rhs => rw [← chunk_flatMap n k l hl]
  simp only [List.mem_flatMap, List.mem_range]
  constructor
  · rintro h x ⟨i, hi, hx⟩; exact h i hi x hx
  · intro h i hi x hx; exact h x ⟨i, hi, hx⟩

theorem atleast1d_shape_iff {α : Type} {a : NDArray α} {s t : List Nat} (hs : s ≠ []) (ht : t ≠ []) :
    a.atleast1d.shape = s ++ t ↔ a.shape = s ++ t := by
  by_cases h : a.shape = []
  · have : a.atleast1d.shape = [1] := by simp [NDArray.atleast1d, h]
    rw [this, h]
    constructor
    · intro e
      have := congrArg List.length e
      have h1 := List.length_pos_iff.mpr hs
      have h2 := List.length_pos_iff.mpr ht
      simp at this; omega
    · intro e; exact absurd (List.append_eq_nil_iff.mp e.symm).1 hs
  · rw [atleast1d_of_ne h]

theorem numeric_foldFree_iff {c s lb ub dv fd} {l : List Flt} {v : Val Flt} :
    (Pattern.numeric c s lb ub dv fd).foldFree (vec l) = .ok v ↔
      l.length = s.prod ∧ v = .arr ⟨s, l.map (constrain1 lb.toFlt ub.toFlt)⟩ := by
  rw [foldFree]
  constructor
  · intro h
    obtain ⟨a, h1, h⟩ := bind_ok h
    rw [Numeric.foldFree_ok] at h1
    obtain ⟨_, h2, rfl⟩ := h1
    simp only [pure, Except.pure, Except.ok.injEq] at h
    exact ⟨h2, h.symm⟩
  · rintro ⟨h, rfl⟩
    rw [Numeric.foldFree_ok.mpr ⟨rfl, h, rfl⟩]; rfl

theorem numeric_flattenFree_iff {c s lb ub dv fd} {v : Val Flt} {vv} {x : NDArray Flt} :
    (Pattern.numeric c s lb ub dv fd).flattenFree v vv = .ok x ↔ Acc (.numeric c s lb ub dv fd) v vv ∧
      ∃ a, v = .arr a ∧ x = vec (a.data.map (unconstrain1 lb.toFlt ub.toFlt)) := by
  rw [flattenFree]
  cases v with
  | dict d => simp [Val.asArr, bind, Except.bind]
  | arr a =>
    simp only [Val.asArr, bind, Except.bind]
    rw [Numeric.flattenFree_ok, acc_numeric_arr]
    simp

theorem simplex_foldFree_iff {k s dv fd} {l : List Flt} {v : Val Flt} :
    (Pattern.simplex k s dv fd).foldFree (vec l) = .ok v ↔ l.length = s.prod * (k - 1) ∧
      v = .arr ⟨s ++ [k], (List.range s.prod).flatMap fun i => constrainSimplexRow (chunk (k - 1) l i)⟩ := by
  rw [foldFree]
  have e : (s ++ [k - 1]).prod = s.prod * (k - 1) := by simp
  constructor
  · intro h
    obtain ⟨a, h1, h⟩ := bind_ok h
    rw [Simplex.foldFree_ok, e] at h1
    obtain ⟨_, h2, rfl⟩ := h1
    simp only [pure, Except.pure, Except.ok.injEq] at h
    exact ⟨h2, h.symm⟩
  · rintro ⟨h, rfl⟩
    rw [Simplex.foldFree_ok.mpr ⟨by rw [e, ← h]; rfl, by rw [e, ← h]; rfl, rfl⟩]; rfl

theorem simplex_flattenFree_iff {k s dv fd} {v : Val Flt} {vv} {x : NDArray Flt} :
    (Pattern.simplex k s dv fd).flattenFree v vv = .ok x ↔ Acc (.simplex k s dv fd) v vv ∧
      ∃ a, v = .arr a ∧ x = vec ((List.range s.prod).flatMap fun i => unconstrainSimplexRow (chunk k a.data i)) := by
  rw [flattenFree]
  cases v with
  | dict d => simp [Val.asArr, bind, Except.bind]
  | arr a =>
    simp only [Val.asArr, bind, Except.bind]
    rw [Simplex.flattenFree_ok, acc_simplex_arr]
    simp

theorem sameApi_numeric {c c' : NumCls} {s t : List Nat} {lb ub dv fd1 fd2 fd3}
    (hp : (Pattern.array s (.numeric c t lb ub dv fd1) fd2).WF) (hq : (Pattern.numeric c' (s ++ t) lb ub dv fd3).WF)
    (h0 : 0 < s.prod) :
    Spec.SameApi (.array s (.numeric c t lb ub dv fd1) fd2) (.numeric c' (s ++ t) lb ub dv fd3) := by
  have hp0 := hp
  have hb : (Pattern.numeric c t lb ub dv fd1).WF := by simp only [WF] at hp; simpa only [WF] using hp.2.2
  have hs : s ≠ [] := by simp only [WF] at hp; exact hp.1
  have ht : t ≠ [] := by simp only [WF] at hb; exact hb.1
  have hacc : ∀ (v : Val Flt) vv, v.WF → (Acc (.array s (.numeric c t lb ub dv fd1) fd2) v vv ↔
      Acc (.numeric c' (s ++ t) lb ub dv fd3) v vv) := by
    intro v vv hv
    rw [acc_array, acc_numeric]
    refine exists_congr fun a => and_congr_right fun e => ?_
    subst e
    rw [atleast1d_shape_iff hs ht]
    refine and_congr_right fun hsh => ?_
    have hsh : a.shape = s ++ t := hsh
    have hlen : a.data.length = s.prod * t.prod := by
      rw [show a.data.length = a.shape.prod from hv, hsh, List.prod_append]
    rw [← forall_mem_chunks hlen]
    constructor
    · intro h hv i hi x hx
      have := h i hi
      rw [acc_numeric] at this
      obtain ⟨_, e, _, h2⟩ := this
      cases e
      exact h2 hv x hx
    · intro h i hi
      rw [acc_numeric]
      exact ⟨_, rfl, by rw [atleast1d_of_ne (by exact ht)]; rfl, fun hv x hx => h hv i hi x hx⟩
  refine sameApi_of hp0 hq rfl rfl rfl ?_ ?_ hacc ?_ ?_ ?_ ?_ ?_
  · simp [flatLen]
  · simp [NoEmpty, h0]
  · intro l v
    rw [foldFree_array_iff (foldFree_shape hb rfl)]
    rw [numeric_foldFree_iff, List.prod_append]
    simp only [numeric_foldFree_iff, flatLen, shape, Val.arr.injEq, NDArray.mk.injEq, true_and]
    refine and_congr_right fun hl => ?_
    have e : l.map (constrain1 lb.toFlt ub.toFlt) =
        (List.range s.prod).flatMap fun i => (chunk t.prod l i).map (constrain1 lb.toFlt ub.toFlt) := by
      rw [← List.map_flatMap, chunk_flatMap _ _ _ hl]
    constructor
    · rintro ⟨g, hg, rfl⟩
      rw [e]
      congr 2
      exact List.flatMap_congr fun i hi => (hg i (List.mem_range.mp hi)).2
    · rintro rfl
      exact ⟨_, fun i hi => ⟨length_chunk hl hi, rfl⟩, by rw [e]⟩
  · intro v vv x hv
    rw [flattenFree_array_iff hb hv, numeric_flattenFree_iff, ← hacc v vv hv]
    simp only [numeric_flattenFree_iff, shape, Val.arr.injEq, exists_eq_left']
    constructor
    · rintro ⟨_, a, rfl, hsh, g, hg, rfl⟩
      have hlen : a.data.length = s.prod * t.prod := by
        rw [show a.data.length = a.shape.prod from hv, hsh, List.prod_append]
      refine ⟨acc_array.mpr ⟨a, rfl, hsh, fun i hi => (hg i hi).1⟩, a, rfl, ?_⟩
      rw [vec_inj, ← chunk_flatMap _ _ _ hlen, List.map_flatMap]
      refine List.flatMap_congr fun i hi => ?_
      have := (hg i (List.mem_range.mp hi)).2
      rw [vec_inj] at this
      exact this
    · rintro ⟨ha, a, rfl, rfl⟩
      obtain ⟨a', e, hsh, hi⟩ := acc_array.mp ha
      cases e
      have hsh : a.shape = s ++ t := hsh
      have hlen : a.data.length = s.prod * t.prod := by
        rw [show a.data.length = a.shape.prod from hv, hsh, List.prod_append]
      refine ⟨h0, a, rfl, hsh, _, fun i h => ⟨hi i h, rfl⟩, ?_⟩
      rw [← List.map_flatMap, chunk_flatMap _ _ _ hlen]
  · intro b h
    cases b with
    | dict d => simp [Spec.ShapeOk] at h
    | arr a => simp only [Spec.ShapeOk] at h ⊢; rw [atleast1d_shape_iff hs ht]; exact h
  · intro free b hb' h
    cases b with
    | dict d => simp [Spec.ShapeOk] at h
    | arr a =>
      simp only [flatMask, shape]
      have h : a.shape = s ++ t := h
      exact chunk_flatMap _ _ _ (by rw [show a.data.length = a.shape.prod from hb', h, List.prod_append])
  · intro v
    rw [empty_array_iff hb rfl]
    simp only [Pattern.empty, shape]
    cases inboundsValue lb.toFlt ub.toFlt with
    | error e => simp [bind, Except.bind]
    | ok r => 
      have e : (List.range s.prod).flatMap (fun _ => List.replicate t.prod r) = List.replicate (s ++ t).prod r := by
        rw [List.prod_append, flatMap_replicate]
      simp only [bind, Except.bind, pure, Except.pure, Except.ok.injEq, Val.arr.injEq, NDArray.mk.injEq, true_and,
        exists_eq_left', e]
      exact eq_comm

/-! ### An array of simplex patterns -/

theorem sameApi_simplex {k : Nat} {s t : List Nat} {dv fd1 fd2 fd3}
    (hp : (Pattern.array s (.simplex k t dv fd1) fd2).WF) (hq : (Pattern.simplex k (s ++ t) dv fd3).WF)
    (h0 : 0 < s.prod) :
    Spec.SameApi (.array s (.simplex k t dv fd1) fd2) (.simplex k (s ++ t) dv fd3) := by
  have hp0 := hp
  have hb : (Pattern.simplex k t dv fd1).WF := by simp only [WF] at hp; simpa only [WF] using hp.2.2
  have hst : (s ++ t).prod = s.prod * t.prod := List.prod_append
  have hbs : (Pattern.simplex k t dv fd1).shape.prod = t.prod * k := by simp [shape]
  have hacc : ∀ (v : Val Flt) vv, v.WF → (Acc (.array s (.simplex k t dv fd1) fd2) v vv ↔
      Acc (.simplex k (s ++ t) dv fd3) v vv) := by
    intro v vv hv
    rw [acc_array, acc_simplex]
    refine exists_congr fun a => and_congr_right fun e => ?_
    subst e
    simp only [shape, List.append_assoc]
    refine and_congr_right fun hsh => ?_
    have hlen : a.data.length = s.prod * (t.prod * k) := by
      rw [show a.data.length = a.shape.prod from hv, hsh]; simp
    rw [← forall_mem_chunks hlen, hst, forall_lt_mul]
    constructor
    · intro h hv
      have h' := fun i hi => acc_simplex.mp (h i hi)
      refine ⟨fun i hi x hx => ?_, fun i hi j hj => ?_⟩
      · obtain ⟨_, e, _, h2⟩ := h' i hi
        cases e
        refine (h2 hv).1 x ?_
        simpa using hx
      · obtain ⟨_, e, _, h2⟩ := h' i hi
        cases e
        have := (h2 hv).2 j hj
        simpa [chunk_chunk _ _ _ hj] using this
    · intro h i hi
      rw [acc_simplex]
      refine ⟨_, rfl, rfl, fun hv => ⟨fun x hx => (h hv).1 i hi x (by simpa using hx), fun j hj => ?_⟩⟩
      have := (h hv).2 i hi j hj
      simpa [chunk_chunk _ _ _ hj] using this
  refine sameApi_of hp0 hq rfl rfl (by simp [shape]) ?_ ?_ hacc ?_ ?_ ?_ ?_ ?_
  · simp [flatLen, Nat.mul_assoc]
  · simp [NoEmpty, h0]
  · intro l v
    rw [foldFree_array_iff (foldFree_shape hb rfl)]
    rw [simplex_foldFree_iff]
    have hfl : (Pattern.simplex k t dv fd1).flatLen true = t.prod * (k - 1) := by simp [flatLen]
    simp only [simplex_foldFree_iff, hfl, shape, Val.arr.injEq, NDArray.mk.injEq, true_and, hst, Nat.mul_assoc]
    refine and_congr_right fun hl => ?_
    have e : ((List.range (s.prod * t.prod)).flatMap fun i => constrainSimplexRow (chunk (k - 1) l i)) =
        (List.range s.prod).flatMap fun i => (List.range t.prod).flatMap fun j =>
          constrainSimplexRow (chunk (k - 1) (chunk (t.prod * (k - 1)) l i) j) := by
      rw [flatMap_range_mul]
      exact List.flatMap_congr fun i _ => List.flatMap_congr fun j hj => by rw [chunk_chunk _ _ _ (List.mem_range.mp hj)]
    rw [e, List.append_assoc]
    constructor
    · rintro ⟨g, hg, rfl⟩
      congr 2
      exact List.flatMap_congr fun i hi => (hg i (List.mem_range.mp hi)).2
    · rintro rfl
      exact ⟨_, fun i hi => ⟨length_chunk hl hi, rfl⟩, rfl⟩
  · intro v vv x hv
    rw [flattenFree_array_iff hb hv, simplex_flattenFree_iff, ← hacc v vv hv]
    simp only [simplex_flattenFree_iff, Val.arr.injEq, exists_eq_left', hbs, hst]
    have e : ∀ a : NDArray Flt, ((List.range (s.prod * t.prod)).flatMap fun i => unconstrainSimplexRow (chunk k a.data i)) =
        (List.range s.prod).flatMap fun i => (List.range t.prod).flatMap fun j =>
          unconstrainSimplexRow (chunk k (chunk (t.prod * k) a.data i) j) := by
      intro a
      rw [flatMap_range_mul]
      exact List.flatMap_congr fun i _ => List.flatMap_congr fun j hj => by rw [chunk_chunk _ _ _ (List.mem_range.mp hj)]
    simp only [e, vec_inj]
    constructor
    · rintro ⟨_, a, rfl, hsh, g, hg, rfl⟩
      refine ⟨acc_array.mpr ⟨a, rfl, hsh, fun i hi => by rw [hbs]; exact (hg i hi).1⟩, a, rfl, ?_⟩
      rw [vec_inj]
      exact List.flatMap_congr fun i hi => (hg i (List.mem_range.mp hi)).2
    · rintro ⟨ha, a, rfl, rfl⟩
      obtain ⟨a', e, hsh, hi⟩ := acc_array.mp ha
      cases e
      exact ⟨h0, a, rfl, hsh, _, fun i h => ⟨by rw [← hbs]; exact hi i h, rfl⟩, rfl⟩
  · intro b h
    cases b <;> simp_all [Spec.ShapeOk, shape]
  · intro free b hb' h
    cases b with
    | dict d => simp [Spec.ShapeOk] at h
    | arr a =>
      have h : a.shape = s ++ (t ++ [k]) := h
      simp only [flatMask, hbs, hst, flatMap_range_mul]
      cases free
      · simp only [Bool.false_eq_true, if_false]
        exact chunk_flatMap _ _ _ (by rw [show a.data.length = a.shape.prod from hb', h]; simp)
      · simp only [if_true]
        exact List.flatMap_congr fun i _ => List.flatMap_congr fun j hj => by rw [chunk_chunk _ _ _ (List.mem_range.mp hj)]
  · intro v
    rw [empty_array_iff hb rfl]
    simp only [Pattern.empty, shape]
    have e : (List.range s.prod).flatMap (fun _ => List.replicate (t ++ [k]).prod (1 / Flt.fin (k : ℝ))) =
        List.replicate (s ++ t ++ [k]).prod (1 / Flt.fin (k : ℝ)) := by
      rw [List.append_assoc, List.prod_append (l₁ := s), flatMap_replicate]
    simp only [Except.ok.injEq, Val.arr.injEq, NDArray.mk.injEq, true_and, exists_eq_left', e, List.append_assoc]
    exact eq_comm

end Pattern
end Paragami
