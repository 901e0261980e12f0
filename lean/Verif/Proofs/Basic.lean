import Verif.Model.Pattern
import Mathlib.Tactic

/-! # Lemmas about exceptions, lists, multi-indices and chunks -/

set_option linter.unusedSimpArgs false
set_option linter.unusedSectionVars false

namespace Paragami

/-! ### `mapE` -/

section MapE
variable {ε α β γ : Type _}

theorem mapE_map (f : β → Except ε γ) (g : α → β) (l : List α) : mapE f (l.map g) = mapE (fun a => f (g a)) l := by
  induction l with
  | nil => rfl
  | cons a l ih => simp only [List.map_cons, mapE, ih]

theorem mapE_congr {f g : α → Except ε β} {l : List α} (h : ∀ a ∈ l, f a = g a) : mapE f l = mapE g l := by
  induction l with
  | nil => rfl
  | cons a l ih =>
    simp only [mapE, h a (by simp), ih (fun b hb => h b (by simp [hb]))]

theorem mapE_ok_of {f : α → Except ε β} {g : α → β} {l : List α} (h : ∀ a ∈ l, f a = .ok (g a)) :
    mapE f l = .ok (l.map g) := by
  induction l with
  | nil => rfl
  | cons a l ih =>
    simp only [mapE, h a (by simp), ih (fun b hb => h b (by simp [hb])), List.map_cons]

theorem mapE_ok_iff {f : α → Except ε β} {l : List α} {bs : List β} :
    mapE f l = .ok bs ↔ List.Forall₂ (fun a b => f a = .ok b) l bs := by
  induction l generalizing bs with
  | nil => cases bs <;> simp [mapE]
  | cons a l ih =>
    simp only [mapE]
    cases hfa : f a with
    | error e => simp [hfa, List.forall₂_cons_left_iff]
    | ok b =>
      cases hl : mapE f l with
      | error e =>
        simp only [List.forall₂_cons_left_iff, reduceCtorEq, false_iff]
        rintro ⟨b', u, _, h2, _⟩
        rw [← ih, hl] at h2; cases h2
      | ok us =>
        simp only [Except.ok.injEq, List.forall₂_cons_left_iff]
        constructor
        · rintro rfl; exact ⟨b, us, hfa, ih.mp hl, rfl⟩
        · rintro ⟨b', u, h1, h2, rfl⟩
          rw [← ih, hl] at h2; rw [hfa] at h1; cases h1; cases h2; rfl

theorem mapE_ok_mem {f : α → Except ε β} {l : List α} {bs : List β} (h : mapE f l = .ok bs) {a : α} (ha : a ∈ l) :
    ∃ b, f a = .ok b := by
  induction l generalizing bs with
  | nil => simp at ha
  | cons a' l ih =>
    rw [mapE_ok_iff, List.forall₂_cons_left_iff] at h
    obtain ⟨b, u, h1, h2, rfl⟩ := h
    rcases List.mem_cons.mp ha with rfl | ha
    · exact ⟨b, h1⟩
    · exact ih (mapE_ok_iff.mpr h2) ha

end MapE

/-! ### Multi-indices -/

namespace NDArray

theorem mem_productRanges {s item : List Nat} (h : item ∈ productRanges s) :
    item.length = s.length ∧ (∀ rest, inRange (s ++ rest) item = true) := by
  induction s generalizing item with
  | nil => simp [productRanges] at h; subst h; simp [inRange]
  | cons n s ih =>
    simp only [productRanges, List.mem_flatMap, List.mem_range, List.mem_map] at h
    obtain ⟨i, hi, it, hit, rfl⟩ := h
    obtain ⟨h1, h2⟩ := ih hit
    refine ⟨by simp [h1], fun rest => ?_⟩
    simp [inRange, hi, h2 rest]

theorem range_mul_eq (n m : Nat) :
    (List.range n).flatMap (fun i => (List.range m).map (i * m + ·)) = List.range (n * m) := by
  induction n with
  | zero => simp
  | succ n ih =>
    rw [List.range_succ, List.flatMap_append, ih, Nat.succ_mul, List.range_add]
    simp

/-- `itertools.product` enumerates the multi-indices in row-major order. -/
theorem map_ravel_productRanges (s : List Nat) : (productRanges s).map (ravel s) = List.range s.prod := by
  induction s with
  | nil => rfl
  | cons n s ih =>
    rw [List.prod_cons, ← range_mul_eq, productRanges, List.map_flatMap]
    congr 1
    funext i
    rw [← ih, List.map_map, List.map_map]
    rfl

theorem mapE_productRanges {ε β : Type _} (s : List Nat) (F : Nat → Except ε β) :
    mapE (fun item => F (ravel s item)) (productRanges s) = mapE F (List.range s.prod) := by
  rw [← map_ravel_productRanges, mapE_map]

theorem length_productRanges (s : List Nat) : (productRanges s).length = s.prod := by
  have := congrArg List.length (map_ravel_productRanges s)
  simpa using this

variable {α : Type _}

/-- The `i`-th chunk of length `k`. -/
def chunk (k : Nat) (l : List α) (i : Nat) : List α := (l.drop (i * k)).take k

theorem length_chunk {k n i : Nat} {l : List α} (hl : l.length = n * k) (hi : i < n) : (chunk k l i).length = k := by
  simp only [chunk, List.length_take, List.length_drop, hl]
  apply min_eq_left
  have : (i + 1) * k ≤ n * k := Nat.mul_le_mul_right _ hi
  rw [Nat.succ_mul] at this
  omega

theorem getItem_eq {a : NDArray α} {s rest item : List Nat} (ha : a.shape = s ++ rest)
    (hi : item ∈ productRanges s) :
    a.getItem item = .ok ⟨rest, chunk rest.prod a.data (ravel s item)⟩ := by
  obtain ⟨h1, h2⟩ := mem_productRanges hi
  simp only [getItem, ha, h2 rest, if_true]
  have e1 : List.drop item.length (s ++ rest) = rest := by rw [h1, List.drop_left]
  have e2 : List.take item.length (s ++ rest) = s := by rw [h1, List.take_left]
  rw [e1, e2]; rfl

theorem chunk_flatMap (n k : Nat) (l : List α) (hl : l.length = n * k) :
    (List.range n).flatMap (chunk k l) = l := by
  induction n generalizing l with
  | zero => simp at hl; simp [hl]
  | succ n ih =>
    rw [List.range_succ_eq_map, List.flatMap_cons, List.flatMap_map]
    have : (fun i => chunk k l (i + 1)) = chunk k (l.drop k) := by
      funext i
      simp only [chunk, List.drop_drop]
      congr 2; ring
    have h0 : chunk k l 0 = l.take k := by simp [chunk]
    simp only [Nat.succ_eq_add_one, this]
    rw [ih, h0, List.take_append_drop]
    rw [List.length_drop, hl, Nat.succ_mul]; omega

theorem chunk_of_flatMap {β : Type _} {n k : Nat} (f : Nat → List β) (hf : ∀ i < n, (f i).length = k) {i : Nat}
    (hi : i < n) : chunk k ((List.range n).flatMap f) i = f i := by
  induction n generalizing f i with
  | zero => omega
  | succ n ih =>
    rw [List.range_succ_eq_map, List.flatMap_cons, List.flatMap_map]
    have h0 := hf 0 (by omega)
    cases i with
    | zero => simp [chunk, ← h0]
    | succ i =>
      have := ih (fun j => f (j + 1)) (fun j hj => hf (j + 1) (by omega)) (i := i) (by omega)
      simp only [Nat.succ_eq_add_one]
      rw [← this]
      simp only [chunk]
      congr 1
      rw [Nat.succ_mul, Nat.add_comm, ← List.drop_drop, ← h0, List.drop_left]

theorem length_flatMap_range {β : Type _} {n k : Nat} (f : Nat → List β) (hf : ∀ i < n, (f i).length = k) :
    ((List.range n).flatMap f).length = n * k := by
  induction n with
  | zero => simp
  | succ n ih =>
    rw [List.range_succ, List.flatMap_append, List.length_append, ih (fun i hi => hf i (by omega))]
    simp [hf n (by omega), Nat.succ_mul]

theorem rows_eq (n k : Nat) (l : List α) : rows n k l = (List.range n).map (chunk k l) := rfl

theorem map_chunk {β : Type _} (f : α → β) (k i : Nat) (l : List α) :
    (chunk k l i).map f = chunk k (l.map f) i := by
  simp [chunk, List.map_take, List.map_drop]

/-- Two lists of the same length with equal chunks are equal. -/
theorem ext_chunks {n k : Nat} {l l' : List α} (h : l.length = n * k) (h' : l'.length = n * k)
    (hc : ∀ i < n, chunk k l i = chunk k l' i) : l = l' := by
  rw [← chunk_flatMap n k l h, ← chunk_flatMap n k l' h']
  apply List.flatMap_congr
  intro i hi
  exact hc i (List.mem_range.mp hi)

@[simp] theorem vec_atleast1d (l : List α) : (vec l).atleast1d = vec l := rfl
@[simp] theorem vec_ndim (l : List α) : (vec l).ndim = 1 := rfl
@[simp] theorem vec_size (l : List α) : (vec l).size = l.length := rfl
@[simp] theorem vec_data (l : List α) : (vec l).data = l := rfl
@[simp] theorem vec_len (l : List α) : (vec l).len = .ok l.length := rfl
@[simp] theorem vec_inj {l l' : List α} : vec l = vec l' ↔ l = l' := by
  constructor
  · intro h; exact congrArg NDArray.data h
  · rintro rfl; rfl

theorem vec_wf (l : List α) : (vec l).WF := by simp [WF, vec]

theorem atleast1d_of_ne {a : NDArray α} (h : a.shape ≠ []) : a.atleast1d = a := by
  unfold atleast1d; split
  · contradiction
  · rfl

theorem atleast1d_data (a : NDArray α) : a.atleast1d.data = a.data := by
  unfold atleast1d; split <;> rfl

theorem atleast1d_wf {a : NDArray α} (h : a.WF) : a.atleast1d.WF := by
  unfold atleast1d; split
  · next h' => simp [WF, h'] at h ⊢; exact h
  · exact h

@[simp] theorem atleast1d_shape_ne_nil (a : NDArray α) : a.atleast1d.shape ≠ [] := by
  unfold atleast1d; split
  · simp
  · assumption

/-- One-dimensional arrays are exactly the vectors (for well-formed arrays). -/
theorem eq_vec_of_ndim {a : NDArray α} (hw : a.WF) (h : a.ndim = 1) : a = vec a.data := by
  obtain ⟨s, d⟩ := a
  simp only [ndim, List.length_eq_one_iff] at h
  obtain ⟨n, rfl⟩ := h
  simp only [WF, List.prod_cons, List.prod_nil, mul_one] at hw
  simp [vec, hw]

end NDArray

namespace Pattern

theorem requireValid_ok_iff {r : Except Err (Bool × String)} :
    requireValid r = .ok () ↔ ∃ m, r = .ok (true, m) := by
  rcases r with e | ⟨b, m⟩
  · simp [requireValid, bind, Except.bind]
  · cases b <;> simp [requireValid, bind, Except.bind, throw, throwThe, MonadExceptOf.throw, pure, Except.pure]

/-- Induction over patterns and member lists. -/
theorem ind {P : Pattern → Prop} {Q : Entries → Prop}
    (hnum : ∀ c s lb ub dv fd, P (.numeric c s lb ub dv fd))
    (hsim : ∀ k s dv fd, P (.simplex k s dv fd))
    (hpsd : ∀ n lb dv fd, P (.psd n lb dv fd))
    (harr : ∀ s b fd, P b → P (.array s b fd))
    (hdict : ∀ es l fd, Q es → P (.dict es l fd))
    (hnil : Q .nil)
    (hcons : ∀ k p r, P p → Q r → Q (.cons k p r)) (p : Pattern) : P p :=
  Pattern.rec (motive_1 := P) (motive_2 := Q) hnum hsim hpsd (fun s b fd h => harr s b fd h)
    (fun es l fd h => hdict es l fd h) hnil (fun k p r hp hr => hcons k p r hp hr) p

end Pattern

end Paragami
