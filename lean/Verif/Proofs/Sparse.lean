import Verif.Spec.Sparse
import Verif.Proofs.JacobianInv
import Verif.Proofs.Regroup

/-! # Sparse storage: proofs -/

namespace Paragami
open Pattern NDArray Spec

namespace Sparse

theorem flt_zero_add (x : Flt) : (0 : Flt) + x = x := by
  cases x with
  | fin x => exact Jac.toFlt_zero_add x
  | _ => rfl

theorem eq_zero_of {x : Flt} (h : x.eq 0 = true) : x = 0 := by
  have e : (0 : Flt) = .fin 0 := by change Flt.fin ((0 : ℕ) : ℝ) = _; simp
  rw [e] at h ⊢
  cases x <;> simp_all [Flt.eq]

section
variable {α : Type} [Add α] [OfNat α 0]

theorem atPos_none {l : List (Nat × Nat × α)} {i j : Nat} (h : ∀ e ∈ l, ¬ (e.1 = i ∧ e.2.1 = j)) : atPos l i j = 0 := by
  have : l.filter (fun e => e.1 = i ∧ e.2.1 = j) = [] := by
    rw [List.filter_eq_nil_iff]; intro e he; simpa using h e he
  simp only [atPos, this, List.map_nil, List.foldl_nil]

theorem atPos_append_left {l l' : List (Nat × Nat × α)} {i j : Nat} (h : ∀ e ∈ l', ¬ (e.1 = i ∧ e.2.1 = j)) :
    atPos (l ++ l') i j = atPos l i j := by
  have : l'.filter (fun e => e.1 = i ∧ e.2.1 = j) = [] := by
    rw [List.filter_eq_nil_iff]; intro e he; simpa using h e he
  simp only [atPos, List.filter_append, this, List.append_nil]

theorem atPos_append_right {l l' : List (Nat × Nat × α)} {i j : Nat} (h : ∀ e ∈ l, ¬ (e.1 = i ∧ e.2.1 = j)) :
    atPos (l ++ l') i j = atPos l' i j := by
  have : l.filter (fun e => e.1 = i ∧ e.2.1 = j) = [] := by
    rw [List.filter_eq_nil_iff]; intro e he; simpa using h e he
  simp only [atPos, List.filter_append, this, List.nil_append]

theorem atPos_mem {l : List (Nat × Nat × α)} (hn : (l.map fun e => (e.1, e.2.1)).Nodup) {i j : Nat} {x : α} (h : (i, j, x) ∈ l) :
    atPos l i j = 0 + x := by
  induction l with
  | nil => simp at h
  | cons e l ih =>
    simp only [List.map_cons, List.nodup_cons] at hn
    rcases List.mem_cons.mp h with rfl | h'
    · have : l.filter (fun e => e.1 = i ∧ e.2.1 = j) = [] := by
        rw [List.filter_eq_nil_iff]
        intro e he hc
        simp only [decide_eq_true_eq] at hc
        exact hn.1 (List.mem_map.mpr ⟨e, he, by simp [hc.1, hc.2]⟩)
      simp only [atPos, List.filter_cons_of_pos (p := fun e : Nat × Nat × α => decide (e.1 = i ∧ e.2.1 = j)) (a := (i, j, x)) (by simp), this,
        List.map_cons, List.map_nil, List.foldl_cons, List.foldl_nil]
    · have hne : ¬ (e.1 = i ∧ e.2.1 = j) := by
        rintro ⟨h1, h2⟩
        exact hn.1 (List.mem_map.mpr ⟨_, h', by simp [h1, h2]⟩)
      have := ih hn.2 h'
      simp only [atPos] at this ⊢
      rw [List.filter_cons_of_neg (by simpa using hne)]
      exact this

theorem atPos_shift (l : List (Nat × Nat × α)) (r c i j : Nat) :
    atPos (l.map fun e => (e.1 + r, e.2.1 + c, e.2.2)) (i + r) (j + c) = atPos l i j := by
  simp only [atPos, List.filter_map, List.map_map, Function.comp_def, Nat.add_right_cancel_iff]
end

/-! ### One matrix -/

theorem storedOf_mem {all : Bool} {a : NDArray Flt} {i j : Nat} {x : Flt} : (i, j, x) ∈ storedOf all a ↔
    i < (matDims a).1 ∧ j < (matDims a).2 ∧ x = entry (matDims a).2 a.data i j ∧ (all || !x.eq 0) = true := by
  simp only [storedOf, List.mem_flatMap, List.mem_range, List.mem_filterMap]
  constructor
  · rintro ⟨i', hi, j', hj, h⟩
    split at h
    · simp only [Option.some.injEq, Prod.mk.injEq] at h
      obtain ⟨rfl, rfl, rfl⟩ := h
      exact ⟨hi, hj, rfl, by assumption⟩
    · simp at h
  · rintro ⟨hi, hj, rfl, h⟩
    exact ⟨i, hi, j, hj, by rw [if_pos h]⟩

theorem once_storedOf (all : Bool) (a : NDArray Flt) : ((storedOf all a).map fun e => (e.1, e.2.1)).Nodup := by
  rw [storedOf, List.map_flatMap, List.nodup_flatMap]
  constructor
  · intro i _
    rw [List.map_filterMap]
    apply List.Nodup.filterMap _ List.nodup_range
    intro a b c ha hb
    simp only [Option.mem_def, Option.map_eq_some_iff] at ha hb
    obtain ⟨e, he, rfl⟩ := ha
    obtain ⟨e', he', h⟩ := hb
    split at he <;> split at he' <;> simp_all
    subst he he'
    simp at h; first | exact h | exact h.symm
  · refine List.nodup_range.imp fun {i i'} hne => ?_
    rw [Function.onFun, List.disjoint_left]
    intro e he he'
    simp only [List.mem_map, List.mem_filterMap] at he he'
    obtain ⟨x, ⟨j, _, hx⟩, rfl⟩ := he
    obtain ⟨y, ⟨j', _, hy⟩, h⟩ := he'
    split at hx <;> split at hy <;> simp_all
    subst hx hy
    simp at h
    exact hne h.1.symm

theorem once_cooOf (all : Bool) (a : NDArray Flt) : StoredOnce (cooOf all a) := once_storedOf all a

theorem inside_cooOf (all : Bool) (a : NDArray Flt) : StoredInside (cooOf all a) := by
  rintro ⟨i, j, x⟩ he
  have := storedOf_mem.mp he
  exact ⟨this.1, this.2.1⟩

theorem cooOf_toarray (all : Bool) {a : NDArray Flt} {m n : Nat} (hs : a.shape = [m, n]) (hw : a.WF) : (cooOf all a).toarray = a := by
  have hd : matDims a = (m, n) := by simp [matDims, hs]
  have hl : a.data.length = m * n := by simpa [NDArray.WF, hs] using hw
  obtain ⟨sh, d⟩ := a
  simp only at hs hl; subst hs
  rw [← ofFn2_entry hl]
  simp only [Coo.toarray, cooOf]
  refine ofFn2_congr fun i hi j hj => ?_
  set a : NDArray Flt := ofFn2 m n fun i j => entry n d i j with ha
  have hd' : matDims a = (m, n) := rfl
  have he : entry n a.data i j = entry n d i j := entry_ofFn2 m n _ hi hj
  by_cases h : (all || !(entry n d i j).eq 0) = true
  · rw [atPos_mem (once_storedOf all a) (storedOf_mem.mpr ⟨by rw [hd']; exact hi, by rw [hd']; exact hj, by rw [hd', he], h⟩), flt_zero_add]
  · rw [atPos_none]
    · rw [Bool.not_eq_true, Bool.or_eq_false_iff] at h
      exact (eq_zero_of (by simpa only [Bool.not_eq_false'] using h.2)).symm
    · rintro ⟨i', j', x⟩ hm ⟨h1, h2⟩
      simp only at h1 h2
      subst h1 h2
      obtain ⟨_, _, hx, hx'⟩ := storedOf_mem.mp hm
      rw [hd', he] at hx
      rw [hx] at hx'
      exact h hx'

theorem diagCoo_mem {d : List Flt} {i j : Nat} {x : Flt} : (i, j, x) ∈ (diagCoo d).stored ↔
    i = j ∧ i < d.length ∧ x = d.getD i .nan ∧ x.eq 0 = false := by
  simp only [diagCoo, List.mem_filterMap, List.mem_range]
  constructor
  · rintro ⟨k, hk, h⟩
    split at h
    · simp at h
    · simp only [Option.some.injEq, Prod.mk.injEq] at h
      obtain ⟨rfl, rfl, rfl⟩ := h
      exact ⟨rfl, hk, rfl, by simp_all⟩
  · rintro ⟨rfl, hi, rfl, h⟩
    exact ⟨i, hi, by rw [h]; rfl⟩

theorem once_diagCoo (d : List Flt) : StoredOnce (diagCoo d) := by
  simp only [StoredOnce, diagCoo]
  rw [List.map_filterMap]
  apply List.Nodup.filterMap _ List.nodup_range
  intro a b c ha hb
  simp only [Option.mem_def, Option.map_eq_some_iff] at ha hb
  obtain ⟨e, he, rfl⟩ := ha
  obtain ⟨e', he', h⟩ := hb
  split at he <;> split at he' <;> simp_all
  subst he he'
  simp at h; first | exact h | exact h.symm

theorem inside_diagCoo (d : List Flt) : StoredInside (diagCoo d) := by
  rintro ⟨i, j, x⟩ he
  obtain ⟨h, hi, _⟩ := diagCoo_mem.mp he
  subst h
  exact ⟨hi, hi⟩

theorem diagCoo_toarray (d : List Flt) : (diagCoo d).toarray = diagMat d := by
  simp only [Coo.toarray, diagMat]
  refine ofFn2_congr fun i hi j hj => ?_
  split
  · next h =>
    subst h
    by_cases h0 : (d.getD i .nan).eq 0 = true
    · rw [eq_zero_of h0]
      refine atPos_none ?_
      rintro ⟨i', j', x⟩ hm ⟨h1, h2⟩
      obtain ⟨_, _, hx, hx'⟩ := diagCoo_mem.mp hm
      simp only at h1; subst h1
      rw [hx, h0] at hx'; simp at hx'
    · rw [atPos_mem (once_diagCoo d) (diagCoo_mem.mpr ⟨rfl, hi, rfl, by simpa using h0⟩), flt_zero_add]
  · next h =>
    refine atPos_none ?_
    rintro ⟨i', j', x⟩ hm ⟨h1, h2⟩
    exact h (h1 ▸ h2 ▸ (diagCoo_mem.mp hm).1)

/-! ### Blocks -/

theorem blockStored_ge : ∀ (cs : List (Coo Flt)) (r c : Nat), ∀ e ∈ blockStored r c cs, r ≤ e.1 ∧ c ≤ e.2.1
  | [], _, _, e, he => by simp [blockStored] at he
  | a :: cs, r, c, e, he => by
    simp only [blockStored, List.mem_append, List.mem_map] at he
    rcases he with ⟨e', _, rfl⟩ | he
    · simp
    · have := blockStored_ge cs _ _ e he; omega

theorem blockStored_lt : ∀ (cs : List (Coo Flt)) (r c : Nat), (∀ a ∈ cs, StoredInside a) → ∀ e ∈ blockStored r c cs,
    e.1 < r + (cs.map (·.nrows)).sum ∧ e.2.1 < c + (cs.map (·.ncols)).sum
  | [], _, _, _, e, he => by simp [blockStored] at he
  | a :: cs, r, c, h, e, he => by
    simp only [blockStored, List.mem_append, List.mem_map] at he
    simp only [List.map_cons, List.sum_cons]
    rcases he with ⟨e', he', rfl⟩ | he
    · have := h a (by simp) e' he'; simp only; omega
    · have := blockStored_lt cs _ _ (fun b hb => h b (by simp [hb])) e he; omega

theorem blockStored_once : ∀ (cs : List (Coo Flt)) (r c : Nat), (∀ a ∈ cs, StoredInside a ∧ StoredOnce a) →
    ((blockStored r c cs).map fun e => (e.1, e.2.1)).Nodup
  | [], _, _, _ => by simp [blockStored]
  | a :: cs, r, c, h => by
    simp only [blockStored, List.map_append, List.map_map, Function.comp_def]
    rw [List.nodup_append]
    refine ⟨?_, blockStored_once cs _ _ fun b hb => h b (by simp [hb]), ?_⟩
    · have := (h a (by simp)).2
      rw [StoredOnce] at this
      rw [show (a.stored.map fun e => (e.1 + r, e.2.1 + c)) = (a.stored.map fun e => (e.1, e.2.1)).map fun q => (q.1 + r, q.2 + c) by
        simp [Function.comp_def]]
      refine this.map fun q q' hq => ?_
      simp only [Prod.mk.injEq, Nat.add_right_cancel_iff] at hq
      exact Prod.ext hq.1 hq.2
    · intro x hx y hy hxy
      subst hxy
      simp only [List.mem_map] at hx hy
      obtain ⟨e, he, rfl⟩ := hx
      obtain ⟨e', he', h'⟩ := hy
      have h1 := (h a (by simp)).1 e he
      have h2 := blockStored_ge cs _ _ e' he'
      simp only [Prod.mk.injEq] at h'
      omega

theorem blockStored_entry : ∀ (cs : List (Coo Flt)) (r c : Nat), (∀ a ∈ cs, StoredInside a) → ∀ i j,
    atPos (blockStored r c cs) (i + r) (j + c) = blockEntry (cs.map Coo.toarray) i j
  | [], _, _, _, _, _ => by simp [blockStored, blockEntry, atPos]
  | a :: cs, r, c, h, i, j => by
    have hd : matDims a.toarray = (a.nrows, a.ncols) := rfl
    have ha := h a (by simp)
    have hge := blockStored_ge cs (r + a.nrows) (c + a.ncols)
    simp only [blockStored, List.map_cons, blockEntry, hd]
    have none1 : (¬ i < a.nrows ∨ ¬ j < a.ncols) → ∀ e ∈ a.stored.map (fun e => (e.1 + r, e.2.1 + c, e.2.2)),
        ¬ (e.1 = i + r ∧ e.2.1 = j + c) := by
      intro hc e he
      obtain ⟨e', he', rfl⟩ := List.mem_map.mp he
      have := ha e' he'
      simp only; omega
    split
    · next hi =>
      rw [atPos_append_left (fun e he => by have := hge e he; omega)]
      split
      · next hj =>
        rw [atPos_shift, show entry a.ncols a.toarray.data i j = atPos a.stored i j from entry_ofFn2 _ _ _ hi hj]
      · next hj => exact atPos_none (none1 (Or.inr hj))
    · next hi =>
      rw [atPos_append_right (none1 (Or.inl hi))]
      split
      · next hj => exact atPos_none fun e he => by have := hge e he; omega
      · next hj =>
        rw [← blockStored_entry cs (r + a.nrows) (c + a.ncols) (fun b hb => h b (by simp [hb])) (i - a.nrows) (j - a.ncols)]
        congr 1 <;> omega

theorem blockDiag_toarray {cs : List (Coo Flt)} (h : ∀ a ∈ cs, StoredInside a) :
    (blockDiag cs).map Coo.toarray = Paragami.blockDiag (cs.map Coo.toarray) := by
  unfold blockDiag Paragami.blockDiag
  cases cs with
  | nil => rfl
  | cons a cs =>
    simp only [Except.map, List.map_cons, Except.ok.injEq]
    have e1 : ∀ b : Coo Flt, matDims b.toarray = (b.nrows, b.ncols) := fun _ => rfl
    simp only [List.map_map, Function.comp_def, e1]
    exact ofFn2_congr fun i _ j _ => by simpa using blockStored_entry (a :: cs) 0 0 h i j

theorem blockDiag_ok {cs : List (Coo Flt)} {c : Coo Flt} (h : ∀ a ∈ cs, StoredInside a ∧ StoredOnce a) (hc : blockDiag cs = .ok c) :
    StoredInside c ∧ StoredOnce c ∧ c.stored.length = (cs.map fun a => a.stored.length).sum := by
  unfold blockDiag at hc
  split at hc
  · simp at hc
  · simp only [Except.ok.injEq] at hc
    subst hc
    refine ⟨fun e he => by simpa using blockStored_lt cs 0 0 (fun a ha => (h a ha).1) e he, blockStored_once cs 0 0 h, ?_⟩
    have : ∀ (cs : List (Coo Flt)) r c, (blockStored r c cs).length = (cs.map fun a => a.stored.length).sum := by
      intro cs
      induction cs with
      | nil => intros; rfl
      | cons a cs ih => intro r c; simp [blockStored, ih]
    exact this cs 0 0

/-! ### Results -/

theorem forall₂_right {α β : Type} {R : α → β → Prop} {l : List α} {l' : List β} (h : List.Forall₂ R l l') {b : β} (hb : b ∈ l') :
    ∃ a ∈ l, R a b := by
  induction h with
  | nil => simp at hb
  | cons h _ ih =>
    rcases List.mem_cons.mp hb with rfl | hb
    · exact ⟨_, by simp, h⟩
    · obtain ⟨a, ha, hr⟩ := ih hb
      exact ⟨a, by simp [ha], hr⟩


/-- A result is what `block_diag` takes of it, stored properly. -/
def Good (all : Bool) (r : Result) : Prop := StoredInside (r.tocoo all) ∧ StoredOnce (r.tocoo all) ∧ (r.tocoo all).toarray = r.toarray

theorem good_ndarray {all a m n} (hs : a.shape = [m, n]) (hw : a.WF) : Good all (.ndarray a) :=
  ⟨inside_cooOf _ _, once_cooOf _ _, cooOf_toarray _ hs hw⟩

theorem good_matrix {all a m n} (hs : a.shape = [m, n]) (hw : a.WF) : Good all (.matrix a) :=
  ⟨inside_cooOf _ _, once_cooOf _ _, cooOf_toarray _ hs hw⟩

theorem good_dia (all d) : Good all (.dia d) := ⟨inside_diagCoo d, once_diagCoo d, diagCoo_toarray d⟩

theorem wf_ofFn2 {α : Type} (m n : Nat) (f : Nat → Nat → α) : (ofFn2 m n f).WF := by simp [NDArray.WF, ofFn2]

/-- The two ways to compute a matrix agree. -/
def Agrees (all : Bool) (x : Except Err Result) (y : Except Err (NDArray Flt)) : Prop :=
  x.map Result.toarray = y ∧ ∀ r, x = .ok r → Good all r

theorem agrees_error {all e} : Agrees all (.error e) (.error e) := ⟨rfl, by simp⟩
theorem agrees_ok {all r} (h : Good all r) : Agrees all (.ok r) (.ok r.toarray) := ⟨rfl, by rintro _ ⟨⟩; exact h⟩

theorem agrees_container {all : Bool} (sparse : Bool) {js : List Result} (h : ∀ r ∈ js, Good all r) :
    Agrees all (containerResult all sparse js) (Paragami.blockDiag (js.map Result.toarray)) := by
  have hc : ∀ c ∈ js.map (·.tocoo all), StoredInside c ∧ StoredOnce c := by
    intro c hc
    obtain ⟨r, hr, rfl⟩ := List.mem_map.mp hc
    exact ⟨(h r hr).1, (h r hr).2.1⟩
  have e : js.map Result.toarray = (js.map (·.tocoo all)).map Coo.toarray := by
    rw [List.map_map]; exact List.map_congr_left fun r hr => (h r hr).2.2.symm
  rw [e, ← blockDiag_toarray fun c hm => (hc c hm).1]
  simp only [containerResult, bind, Except.bind, pure, Except.pure]
  cases hb : blockDiag (js.map (·.tocoo all)) with
  | error e => exact agrees_error
  | ok c =>
    have := blockDiag_ok hc hb
    cases sparse
    · exact agrees_ok (r := .ndarray c.toarray) (good_ndarray rfl (wf_ofFn2 _ _ _))
    · exact agrees_ok (r := .coo c) ⟨this.1, this.2.1, rfl⟩

theorem agrees_simplexResult {all : Bool} (sparse : Bool) {js : List (NDArray Flt)} (h : ∀ a ∈ js, ∃ m n, a.shape = [m, n] ∧ a.WF) :
    Agrees all (simplexResult all sparse js) (Paragami.blockDiag js) := by
  have hc : ∀ c ∈ js.map (cooOf all), StoredInside c ∧ StoredOnce c := by
    intro c hc
    obtain ⟨r, hr, rfl⟩ := List.mem_map.mp hc
    exact ⟨inside_cooOf _ _, once_cooOf _ _⟩
  have e : js = (js.map (cooOf all)).map Coo.toarray := by
    rw [List.map_map]
    conv_lhs => rw [← List.map_id js]
    refine List.map_congr_left fun a ha => ?_
    obtain ⟨m, n, hs, hw⟩ := h a ha
    exact (cooOf_toarray all hs hw).symm
  conv => arg 3; rw [e]
  rw [← blockDiag_toarray fun c hm => (hc c hm).1]
  simp only [simplexResult, bind, Except.bind, pure, Except.pure]
  cases hb : blockDiag (js.map (cooOf all)) with
  | error e => exact agrees_error
  | ok c =>
    have := blockDiag_ok hc hb
    cases sparse
    · exact agrees_ok (r := .matrix c.toarray) (good_matrix rfl (wf_ofFn2 _ _ _))
    · exact agrees_ok (r := .coo c) ⟨this.1, this.2.1, rfl⟩

theorem agrees_simplex {all : Bool} {f : List Flt → NDArray Flt} (hf : ∀ l, ∃ m n, (f l).shape = [m, n] ∧ (f l).WF) (s : List Nat)
    (sparse : Bool) (a : NDArray Flt) : Agrees all (simplexJacobian all f s sparse a) (Simplex.jacobian f s a) := by
  simp only [simplexJacobian, Simplex.jacobian, bind, Except.bind]
  split
  · exact agrees_error
  · next js hjs =>
    refine agrees_simplexResult sparse fun J hJ => ?_
    have := mapE_ok_iff.mp hjs
    obtain ⟨item, _, h⟩ := forall₂_right this hJ
    split at h
    · simp at h
    · next sub _ =>
      split at h
      · simp only [Except.ok.injEq] at h; subst h; exact hf sub.data
      · simp at h

theorem agrees_mapE {ι : Type} {all : Bool} {f : ι → Except Err Result} {g : ι → Except Err (NDArray Flt)}
    (h : ∀ i, Agrees all (f i) (g i)) : ∀ l : List ι, (mapE f l).map (List.map Result.toarray) = mapE g l ∧
      ∀ js, mapE f l = .ok js → ∀ r ∈ js, Good all r
  | [] => ⟨rfl, by rintro _ ⟨⟩; simp⟩
  | i :: l => by
    obtain ⟨h1, h2⟩ := h i
    obtain ⟨h3, h4⟩ := agrees_mapE h l
    simp only [mapE, ← h1, ← h3]
    cases hf : f i with
    | error e => exact ⟨rfl, by simp⟩
    | ok r =>
      cases hl : mapE f l with
      | error e => exact ⟨rfl, by simp⟩
      | ok js =>
        refine ⟨rfl, ?_⟩
        rintro _ ⟨⟩ r' hr'
        rcases List.mem_cons.mp hr' with rfl | hr'
        · exact h2 _ hf
        · exact h4 _ hl _ hr'

theorem agrees_items {all : Bool} (sparse : Bool) {f : Val Flt → Except Err Result} {g : Val Flt → Except Err (NDArray Flt)}
    (h : ∀ v, Agrees all (f v) (g v)) (a : NDArray Flt) (s : List Nat) :
    Agrees all (do
      let jacs ← mapE (fun item => do
        let sub ← a.getItem item
        f (.arr sub)) (productRanges s)
      containerResult all sparse jacs) (jacobianItems g a s) := by
  have h' : ∀ item, Agrees all (do let sub ← a.getItem item; f (.arr sub)) (do let sub ← a.getItem item; g (.arr sub)) := by
    intro item
    simp only [bind, Except.bind]
    split
    · exact agrees_error
    · exact h _
  obtain ⟨h1, h2⟩ := agrees_mapE h' (productRanges s)
  simp only [jacobianItems]
  rw [← h1]
  cases hm : mapE (fun item => (do let sub ← a.getItem item; f (.arr sub) : Except Err Result)) (productRanges s) with
  | error e => exact agrees_error
  | ok js => exact agrees_container sparse (h2 js hm)

theorem shape_unconstrain (l : List Flt) : ∃ m n, (Simplex.unconstrainJacobian l).shape = [m, n] ∧ (Simplex.unconstrainJacobian l).WF :=
  ⟨_, _, rfl, wf_ofFn2 _ _ _⟩
theorem shape_constrain (l : List Flt) : ∃ m n, (Simplex.constrainJacobian l).shape = [m, n] ∧ (Simplex.constrainJacobian l).WF :=
  ⟨_, _, rfl, wf_ofFn2 _ _ _⟩

theorem agrees_numeric {all sparse : Bool} (d : List Flt) :
    Agrees all (.ok (if sparse then Result.dia d else Result.ndarray (diagMat d))) (.ok (diagMat d)) := by
  cases sparse
  · exact agrees_ok (r := .ndarray (diagMat d)) (good_ndarray rfl (wf_ofFn2 _ _ _))
  · exact agrees_ok (r := .dia d) (good_dia all d)

theorem agrees_autograd {all sparse : Bool} {J : NDArray Flt} {m n} (hs : J.shape = [m, n]) (hw : J.WF) :
    Agrees all (.ok (if sparse then Result.coo (cooOf false J) else Result.ndarray J)) (.ok J) := by
  cases sparse
  · exact agrees_ok (r := .ndarray J) (good_ndarray hs hw)
  · have := agrees_ok (all := all) (r := .coo (cooOf false J)) ⟨inside_cooOf _ _, once_cooOf _ _, rfl⟩
    rwa [Result.toarray, cooOf_toarray false hs hw] at this

theorem freeing_agrees {ad : AutogradJacobian} (had : AutogradShape ad) (all : Bool) (p : Pattern) : ∀ (sparse : Bool) (v : Val Flt),
    Agrees all (freeingSparse ad all p sparse v) (freeingJacobian ad p v) := by
  induction p using Pattern.ind (Q := fun es => ∀ vs, (freeingSparseEs ad all es vs).map (List.map Result.toarray) = freeingJacobianEs ad es vs ∧
      ∀ js, freeingSparseEs ad all es vs = .ok js → ∀ r ∈ js, Good all r) with
  | hnum c s lb ub dv fd =>
    intro sparse v
    simp only [freeingSparse, freeingJacobian, bind, Except.bind, pure, Except.pure]
    split
    · exact agrees_error
    · exact agrees_numeric _
  | hsim k s dv fd =>
    intro sparse v
    simp only [freeingSparse, freeingJacobian, bind, Except.bind]
    split
    · exact agrees_error
    · exact agrees_simplex shape_unconstrain s sparse _
  | hpsd n lb dv fd =>
    intro sparse v
    simp only [freeingSparse, freeingJacobian, bind, Except.bind, pure, Except.pure]
    split
    · exact agrees_error
    · next x _ =>
      cases hJ : ad (psd n lb dv fd).freeingTransform x with
      | error e => exact agrees_error
      | ok J =>
        obtain ⟨y, _, hs, hw⟩ := had _ _ _ hJ
        exact agrees_autograd hs hw
  | harr s b fd ih =>
    intro sparse v
    simp only [freeingSparse, freeingJacobian]
    cases v with
    | dict vs => exact agrees_error
    | arr a => exact agrees_items sparse (fun v => ih true v) a s
  | hdict es l fd ih =>
    intro sparse v
    simp only [freeingSparse, freeingJacobian]
    cases v with
    | arr a => exact agrees_error
    | dict vs =>
      obtain ⟨h1, h2⟩ := ih vs
      simp only [Val.asDict, bind, Except.bind]
      rw [← h1]
      cases hm : freeingSparseEs ad all es vs with
      | error e => exact agrees_error
      | ok js => exact agrees_container sparse (h2 js hm)
  | hnil vs => exact ⟨rfl, by rintro _ ⟨⟩; simp⟩
  | hcons k p r ihp ihr vs =>
    obtain ⟨h3, h4⟩ := ihr vs
    simp only [freeingSparseEs, freeingJacobianEs, bind, Except.bind, pure, Except.pure]
    cases hv : vs.lookup k with
    | none => exact ⟨rfl, by simp⟩
    | some v =>
      obtain ⟨h1, h2⟩ := ihp true v
      simp only [← h1, ← h3]
      cases hf : freeingSparse ad all p true v with
      | error e => exact ⟨rfl, by simp⟩
      | ok j =>
        cases hl : freeingSparseEs ad all r vs with
        | error e => exact ⟨rfl, by simp⟩
        | ok js =>
          refine ⟨rfl, ?_⟩
          rintro _ ⟨⟩ r' hr'
          rcases List.mem_cons.mp hr' with rfl | hr'
          · exact h2 _ hf
          · exact h4 _ hl _ hr'

theorem unfreeing_agrees {ad : AutogradJacobian} (had : AutogradShape ad) (all : Bool) (p : Pattern) : ∀ (sparse : Bool) (v : Val Flt),
    Agrees all (unfreeingSparse ad all p sparse v) (unfreeingJacobian ad p v) := by
  induction p using Pattern.ind (Q := fun es => ∀ vs, (unfreeingSparseEs ad all es vs).map (List.map Result.toarray) = unfreeingJacobianEs ad es vs ∧
      ∀ js, unfreeingSparseEs ad all es vs = .ok js → ∀ r ∈ js, Good all r) with
  | hnum c s lb ub dv fd =>
    intro sparse v
    simp only [unfreeingSparse, unfreeingJacobian, bind, Except.bind, pure, Except.pure]
    split
    · exact agrees_error
    · exact agrees_numeric _
  | hsim k s dv fd =>
    intro sparse v
    simp only [unfreeingSparse, unfreeingJacobian, bind, Except.bind]
    split
    · exact agrees_error
    · exact agrees_simplex shape_constrain s sparse _
  | hpsd n lb dv fd =>
    intro sparse v
    simp only [unfreeingSparse, unfreeingJacobian, bind, Except.bind, pure, Except.pure]
    split
    · exact agrees_error
    · next x _ =>
      cases hJ : ad (psd n lb dv fd).unfreeingTransform x with
      | error e => exact agrees_error
      | ok J =>
        obtain ⟨y, _, hs, hw⟩ := had _ _ _ hJ
        exact agrees_autograd hs hw
  | harr s b fd ih =>
    intro sparse v
    simp only [unfreeingSparse, unfreeingJacobian]
    cases v with
    | dict vs => exact agrees_error
    | arr a => exact agrees_items sparse (fun v => ih true v) a s
  | hdict es l fd ih =>
    intro sparse v
    simp only [unfreeingSparse, unfreeingJacobian]
    cases v with
    | arr a => exact agrees_error
    | dict vs =>
      obtain ⟨h1, h2⟩ := ih vs
      simp only [Val.asDict, bind, Except.bind]
      rw [← h1]
      cases hm : unfreeingSparseEs ad all es vs with
      | error e => exact agrees_error
      | ok js => exact agrees_container sparse (h2 js hm)
  | hnil vs => exact ⟨rfl, by rintro _ ⟨⟩; simp⟩
  | hcons k p r ihp ihr vs =>
    obtain ⟨h3, h4⟩ := ihr vs
    simp only [unfreeingSparseEs, unfreeingJacobianEs, bind, Except.bind, pure, Except.pure]
    cases hv : vs.lookup k with
    | none => exact ⟨rfl, by simp⟩
    | some v =>
      obtain ⟨h1, h2⟩ := ihp true v
      simp only [← h1, ← h3]
      cases hf : unfreeingSparse ad all p true v with
      | error e => exact ⟨rfl, by simp⟩
      | ok j =>
        cases hl : unfreeingSparseEs ad all r vs with
        | error e => exact ⟨rfl, by simp⟩
        | ok js =>
          refine ⟨rfl, ?_⟩
          rintro _ ⟨⟩ r' hr'
          rcases List.mem_cons.mp hr' with rfl | hr'
          · exact h2 _ hf
          · exact h4 _ hl _ hr'

/-! ### How much is stored -/

theorem length_storedOf (all : Bool) (a : NDArray Flt) : (storedOf all a).length ≤ (matDims a).1 * (matDims a).2 := by
  rw [storedOf, List.length_flatMap]
  calc _ ≤ ((List.range (matDims a).1).map fun _ => (matDims a).2).sum := by
        refine List.sum_le_sum fun i _ => ?_
        exact (List.length_filterMap_le _ _).trans (by simp)
    _ = _ := by simp

theorem prod_atleast1d {a : NDArray Flt} (h : (Val.arr a).WF) : a.atleast1d.shape.prod = a.data.length := by
  have h : a.WF := h
  obtain ⟨s, d⟩ := a
  cases s <;> simp_all [NDArray.atleast1d, NDArray.WF]

theorem length_diagCoo (d : List Flt) : (diagCoo d).stored.length ≤ d.length := (List.length_filterMap_le _ _).trans (by simp)

theorem sum_le_const {β : Type} {l : List β} {f : β → Nat} {b : Nat} (h : ∀ x ∈ l, f x ≤ b) : (l.map f).sum ≤ l.length * b := by
  induction l with
  | nil => simp
  | cons x l ih =>
    have := h x (by simp)
    have := ih fun y hy => h y (by simp [hy])
    simp only [List.map_cons, List.sum_cons, List.length_cons, Nat.add_mul, Nat.one_mul]; omega

theorem blockDiag_length {cs : List (Coo Flt)} {c : Coo Flt} (hc : blockDiag cs = .ok c) :
    c.stored.length = (cs.map fun a => a.stored.length).sum := by
  unfold blockDiag at hc
  split at hc
  · simp at hc
  · simp only [Except.ok.injEq] at hc
    subst hc
    have : ∀ (cs : List (Coo Flt)) r c, (blockStored r c cs).length = (cs.map fun a => a.stored.length).sum := by
      intro cs
      induction cs with
      | nil => intros; rfl
      | cons a cs ih => intro r c; simp [blockStored, ih]
    exact this cs 0 0

/-- The number of entries stored for a result. -/
noncomputable def count (all : Bool) (r : Result) : Nat := (r.tocoo all).stored.length

theorem count_container {all : Bool} {js : List Result} {r : Result} (h : containerResult all true js = .ok r) :
    count all r = (js.map (count all)).sum := by
  simp only [containerResult, pure, Except.pure] at h
  obtain ⟨c, hc, h⟩ := bind_ok h
  cases h
  have := blockDiag_length hc
  rw [List.map_map] at this
  exact this

theorem count_simplex {all : Bool} {f : List Flt → NDArray Flt} {k b : Nat} (hf : ∀ l : List Flt, l.length = k → (matDims (f l)).1 * (matDims (f l)).2 ≤ b)
    {s : List Nat} {a : NDArray Flt} (hs : a.shape = s ++ [k]) (hw : a.WF) {r : Result} (h : simplexJacobian all f s true a = .ok r) :
    count all r ≤ s.prod * b := by
  simp only [simplexJacobian] at h
  obtain ⟨js, hjs, h⟩ := bind_ok h
  simp only [simplexResult, pure, Except.pure] at h
  obtain ⟨c, hc, h⟩ := bind_ok h
  cases h
  have hl := blockDiag_length hc
  rw [List.map_map] at hl
  have hF := mapE_ok_iff.mp hjs
  have hlen : js.length = s.prod := by rw [← hF.length_eq, length_productRanges]
  rw [← hlen]
  refine hl.trans_le (sum_le_const fun J hJ => ?_)
  obtain ⟨item, hitem, hi⟩ := forall₂_right hF hJ
  rw [getItem_eq hs hitem] at hi
  simp only [bind, Except.bind] at hi
  split at hi
  · simp only [Except.ok.injEq] at hi
    subst hi
    refine (length_storedOf all _).trans (hf _ ?_)
    have hw' : a.data.length = s.prod * k := by simpa [NDArray.WF, hs] using hw
    have hlt : ravel s item < s.prod := by
      have : ravel s item ∈ (productRanges s).map (ravel s) := List.mem_map.mpr ⟨_, hitem, rfl⟩
      rw [map_ravel_productRanges] at this
      exact List.mem_range.mp this
    simpa using length_chunk hw' hlt
  · simp at hi

theorem count_items {all : Bool} {f : Val Flt → Except Err Result} {a : NDArray Flt} {s bs : List Nat} {b : Nat} (hs : a.shape = s ++ bs)
    (hf : ∀ i < s.prod, ∀ r, f (.arr ⟨bs, chunk bs.prod a.data i⟩) = .ok r → count all r ≤ b) {r : Result}
    (h : (do
      let jacs ← mapE (fun item => do
        let sub ← a.getItem item
        f (.arr sub)) (productRanges s)
      containerResult all true jacs) = .ok r) : count all r ≤ s.prod * b := by
  obtain ⟨js, hjs, h⟩ := bind_ok h
  rw [count_container h]
  have hF := mapE_ok_iff.mp hjs
  have hlen : js.length = s.prod := by rw [← hF.length_eq, length_productRanges]
  rw [← hlen]
  refine sum_le_const fun J hJ => ?_
  obtain ⟨item, hitem, hi⟩ := forall₂_right hF hJ
  rw [getItem_eq hs hitem] at hi
  refine hf _ ?_ _ hi
  have : ravel s item ∈ (productRanges s).map (ravel s) := List.mem_map.mpr ⟨_, hitem, rfl⟩
  rw [map_ravel_productRanges] at this
  exact List.mem_range.mp this

theorem count_psd_freeing {ad : AutogradJacobian} (had : AutogradShape ad) {n lb dv fd} (hw : (psd n lb dv fd).WF) {v : Val Flt} (hv : v.WF)
    {x J : NDArray Flt} (hx : (psd n lb dv fd).flatten v (some false) = .ok x) (hJ : ad (psd n lb dv fd).freeingTransform x = .ok J)
    (all : Bool) : count all (.coo (cooOf false J)) ≤ n * n * (n * (n + 1) / 2) := by
  obtain ⟨y, hy, hs, _⟩ := had _ _ _ hJ
  rw [flatten_false] at hx
  obtain ⟨hacc, hne⟩ := flattenNF_ok_imp _ hw _ _ _ hv hx
  have hx' : x.data.length = n * n := by
    rw [flattenNF_eq _ hw _ _ hv hne hacc] at hx
    cases hx
    simpa [flatLen, sq] using length_flat _ hw _ _ hv hacc
  simp only [freeingTransform] at hy
  obtain ⟨w, hf, hy⟩ := bind_ok hy
  rw [fold_false] at hf
  rw [flatten_true] at hy
  obtain ⟨hl, rfl, _⟩ := foldNF_ok_imp _ hw _ _ _ hf
  have hy' := (flattenFree_ok_len _ hw _ _ _ (unflat_wf _ hw _ hl) hy).2.2
  simp only [flatLen] at hy'
  refine (length_storedOf false J).trans ?_
  simp only [matDims, hs, hx', hy']
  rw [Nat.mul_comm]; simp

theorem count_psd_unfreeing {ad : AutogradJacobian} (had : AutogradShape ad) {n lb dv fd} (hw : (psd n lb dv fd).WF) {v : Val Flt} (hv : v.WF)
    {x J : NDArray Flt} (hx : (psd n lb dv fd).flatten v (some true) = .ok x) (hJ : ad (psd n lb dv fd).unfreeingTransform x = .ok J)
    (all : Bool) : count all (.coo (cooOf false J)) ≤ n * n * (n * (n + 1) / 2) := by
  obtain ⟨y, hy, hs, _⟩ := had _ _ _ hJ
  rw [flatten_true] at hx
  obtain ⟨_, hxv, hxl⟩ := flattenFree_ok_len _ hw _ _ _ hv hx
  simp only [flatLen] at hxl
  simp only [unfreeingTransform] at hy
  obtain ⟨w, hf, hy⟩ := bind_ok hy
  rw [fold_true, hxv] at hf
  rw [flatten_false] at hy
  obtain ⟨d, rfl, hd⟩ := foldFree_ok_arr _ hw rfl _ _ hf
  have hwv : (Val.arr ⟨(psd n lb dv fd).shape, d⟩ : Val Flt).WF := by simpa [Val.WF, NDArray.WF] using hd
  obtain ⟨hacc, hne⟩ := flattenNF_ok_imp _ hw _ _ _ hwv hy
  have hy' : y.data.length = n * n := by
    rw [flattenNF_eq _ hw _ _ hwv hne hacc] at hy
    cases hy
    simpa [flatLen, sq] using length_flat _ hw _ _ hwv hacc
  refine (length_storedOf false J).trans ?_
  simp only [matDims, hs, hxl, hy']
  simp

theorem count_freeing {ad : AutogradJacobian} (had : AutogradShape ad) (all : Bool) (p : Pattern) (hw : p.WF) : ∀ (v : Val Flt) (r : Result), v.WF →
    Acc p v (some false) → freeingSparse ad all p true v = .ok r → count all r ≤ relatedPairs p := by
  revert hw
  induction p using Pattern.ind (Q := fun es => WFEs es → ∀ (vs : List (String × Val Flt)) (js : List Result), Val.WFEs vs →
      AccEs es vs (some false) → freeingSparseEs ad all es vs = .ok js → (js.map (count all)).sum ≤ relatedPairsEs es) with
  | hnum c s lb ub dv fd =>
    intro hw v r hv ha h
    obtain ⟨a, rfl, hs, _⟩ := acc_numeric.mp ha
    simp only [freeingSparse, Val.asArr, bind, Except.bind, pure, Except.pure, if_true, Except.ok.injEq] at h
    subst h
    refine (length_diagCoo _).trans ?_
    have : a.data.length = s.prod := by rw [← hs, prod_atleast1d hv]
    simp [relatedPairs, this]
  | hsim k s dv fd =>
    intro hw v r hv ha h
    obtain ⟨a, rfl, hs, _⟩ := acc_simplex.mp ha
    simp only [freeingSparse, Val.asArr, bind, Except.bind] at h
    refine count_simplex (fun l hl => ?_) hs hv h
    simp [Simplex.unconstrainJacobian, matDims, ofFn2, hl, Nat.mul_comm]
  | hpsd n lb dv fd =>
    intro hw v r hv ha h
    simp only [freeingSparse, pure, Except.pure, if_true] at h
    obtain ⟨x, hx, h⟩ := bind_ok h
    obtain ⟨J, hJ, h⟩ := bind_ok h
    cases h
    exact count_psd_freeing had hw hv hx hJ all
  | harr s b fd ih =>
    intro hw v r hv ha h
    obtain ⟨a, rfl, hs, hi⟩ := acc_array.mp ha
    simp only [freeingSparse, Val.asArr] at h
    have hv' : a.data.length = s.prod * b.shape.prod := by simpa [Val.WF, NDArray.WF, hs] using hv
    refine count_items (f := fun v => freeingSparse ad all b true v) hs (fun i hlt r hr => ?_) h
    refine ih hw.2.2 _ _ ?_ (hi i hlt) hr
    simpa [Val.WF, NDArray.WF] using length_chunk hv' hlt
  | hdict es l fd ih =>
    intro hw v r hv ha h
    obtain ⟨vs, rfl, ha'⟩ := acc_dict.mp ha
    simp only [freeingSparse, Val.asDict] at h
    obtain ⟨js, hj, h⟩ := bind_ok (show (freeingSparseEs ad all es vs >>= fun jacs => containerResult all true jacs) = .ok r from h)
    rw [count_container h]
    exact ih hw.2 vs js hv ha' hj
  | hnil hw vs js hv ha h => simp only [freeingSparseEs, Except.ok.injEq] at h; subst h; simp [relatedPairsEs]
  | hcons k p r ihp ihr hw vs js hv ha h =>
    obtain ⟨⟨v, hl, hav⟩, har⟩ := ha
    simp only [freeingSparseEs, hl, pure, Except.pure] at h
    obtain ⟨j, hj, h⟩ := bind_ok h
    obtain ⟨js', hjs, h⟩ := bind_ok h
    cases h
    have h1 := ihp hw.1 v j (WFEs_lookup hv hl) hav hj
    have h2 := ihr hw.2.2 vs js' hv har hjs
    simp only [List.map_cons, List.sum_cons, relatedPairsEs]; omega

theorem count_unfreeing {ad : AutogradJacobian} (had : AutogradShape ad) (all : Bool) (p : Pattern) (hw : p.WF) : ∀ (v : Val Flt) (r : Result), v.WF →
    Acc p v (some false) → unfreeingSparse ad all p true v = .ok r → count all r ≤ relatedPairs p := by
  revert hw
  induction p using Pattern.ind (Q := fun es => WFEs es → ∀ (vs : List (String × Val Flt)) (js : List Result), Val.WFEs vs →
      AccEs es vs (some false) → unfreeingSparseEs ad all es vs = .ok js → (js.map (count all)).sum ≤ relatedPairsEs es) with
  | hnum c s lb ub dv fd =>
    intro hw v r hv ha h
    obtain ⟨a, rfl, hs, _⟩ := acc_numeric.mp ha
    simp only [unfreeingSparse, Val.asArr, bind, Except.bind, pure, Except.pure, if_true, Except.ok.injEq] at h
    subst h
    refine (length_diagCoo _).trans ?_
    have : a.data.length = s.prod := by rw [← hs, prod_atleast1d hv]
    simp [relatedPairs, this]
  | hsim k s dv fd =>
    intro hw v r hv ha h
    obtain ⟨a, rfl, hs, _⟩ := acc_simplex.mp ha
    simp only [unfreeingSparse, Val.asArr, bind, Except.bind] at h
    refine count_simplex (fun l hl => ?_) hs hv h
    simp [Simplex.constrainJacobian, matDims, ofFn2, hl]
  | hpsd n lb dv fd =>
    intro hw v r hv ha h
    simp only [unfreeingSparse, pure, Except.pure, if_true] at h
    obtain ⟨x, hx, h⟩ := bind_ok h
    obtain ⟨J, hJ, h⟩ := bind_ok h
    cases h
    exact count_psd_unfreeing had hw hv hx hJ all
  | harr s b fd ih =>
    intro hw v r hv ha h
    obtain ⟨a, rfl, hs, hi⟩ := acc_array.mp ha
    simp only [unfreeingSparse, Val.asArr] at h
    have hv' : a.data.length = s.prod * b.shape.prod := by simpa [Val.WF, NDArray.WF, hs] using hv
    refine count_items (f := fun v => unfreeingSparse ad all b true v) hs (fun i hlt r hr => ?_) h
    refine ih hw.2.2 _ _ ?_ (hi i hlt) hr
    simpa [Val.WF, NDArray.WF] using length_chunk hv' hlt
  | hdict es l fd ih =>
    intro hw v r hv ha h
    obtain ⟨vs, rfl, ha'⟩ := acc_dict.mp ha
    simp only [unfreeingSparse, Val.asDict] at h
    obtain ⟨js, hj, h⟩ := bind_ok (show (unfreeingSparseEs ad all es vs >>= fun jacs => containerResult all true jacs) = .ok r from h)
    rw [count_container h]
    exact ih hw.2 vs js hv ha' hj
  | hnil hw vs js hv ha h => simp only [unfreeingSparseEs, Except.ok.injEq] at h; subst h; simp [relatedPairsEs]
  | hcons k p r ihp ihr hw vs js hv ha h =>
    obtain ⟨⟨v, hl, hav⟩, har⟩ := ha
    simp only [unfreeingSparseEs, hl, pure, Except.pure] at h
    obtain ⟨j, hj, h⟩ := bind_ok h
    obtain ⟨js', hjs, h⟩ := bind_ok h
    cases h
    have h1 := ihp hw.1 v j (WFEs_lookup hv hl) hav hj
    have h2 := ihr hw.2.2 vs js' hv har hjs
    simp only [List.map_cons, List.sum_cons, relatedPairsEs]; omega

end Sparse
end Paragami
