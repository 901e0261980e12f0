import Verif.Proofs.Nonfree

/-! # `foldNF` and `flattenNF` are reshapes -/

set_option linter.unusedSimpArgs false
set_option linter.unusedSectionVars false

namespace Paragami

namespace Pattern
open NDArray

section
variable {α : Type}

mutual
/-- Cut a flat vector into the folded shape. -/
def unflat : Pattern → List α → Val α
  | .dict es _ _, l => .dict (unflatEs es l)
  | .numeric c s lb ub dv fd, l => .arr ⟨(Pattern.numeric c s lb ub dv fd).shape, l⟩
  | .simplex k s dv fd, l => .arr ⟨(Pattern.simplex k s dv fd).shape, l⟩
  | .psd n lb dv fd, l => .arr ⟨(Pattern.psd n lb dv fd).shape, l⟩
  | .array s b fd, l => .arr ⟨(Pattern.array s b fd).shape, l⟩
/-- Cut a flat vector into the members. -/
def unflatEs : Entries → List α → List (String × Val α)
  | .nil, _ => []
  | .cons k p r, l => (k, p.unflat (l.take (p.flatLen false))) :: unflatEs r (l.drop (p.flatLen false))
end

theorem unflat_of_not_dict {p : Pattern} (h : p.isDict = false) (l : List α) : p.unflat l = .arr ⟨p.shape, l⟩ := by
  cases p <;> simp_all [unflat, isDict]

mutual
/-- All entries in flat order. -/
def flat : Pattern → Val α → List α
  | .dict es _ _, .dict vs => flatEs es vs
  | _, .arr a => a.data
  | _, _ => []
/-- All entries of the members in flat order. -/
def flatEs : Entries → List (String × Val α) → List α
  | .nil, _ => []
  | .cons k p r, vs => (match vs.lookup k with | some v => p.flat v | none => []) ++ flatEs r vs
end

@[simp] theorem flat_arr (p : Pattern) (a : NDArray α) (h : p.isDict = false) : p.flat (.arr a) = a.data := by
  cases p <;> simp_all [flat, isDict]

theorem flatLen_false {p : Pattern} (h : p.isDict = false) (hw : p.WF) : p.flatLen false = p.shape.prod := by
  induction p using Pattern.ind (Q := fun _ => True) with
  | hnum => simp [flatLen, shape]
  | hsim => simp [flatLen, shape]
  | hpsd => simp [flatLen, shape, sq]
  | harr s b fd ih =>
    simp only [WF] at hw
    simp [flatLen, shape, ih hw.2.1 hw.2.2]
  | hdict => simp [isDict] at h
  | hnil => trivial
  | hcons => trivial

theorem shape_ne_nil {p : Pattern} (h : p.isDict = false) (hw : p.WF) : p.shape ≠ [] := by
  cases p <;> simp_all [shape, isDict, WF]

variable [Elem α]

/-! #### checks -/

omit [Elem α] in
theorem checkFlat_ok {x y : NDArray α} {n : Nat} (h : checkFlat x n = .ok y) :
    y = x.atleast1d ∧ y.ndim = 1 ∧ x.data.length = n := by
  simp only [checkFlat, bind, Except.bind, throw, throwThe, MonadExceptOf.throw, pure, Except.pure] at h
  split at h
  · simp at h
  · next h1 =>
    split at h
    · simp at h
    · next h2 =>
      simp only [Except.ok.injEq] at h
      subst h
      refine ⟨rfl, by simpa using h1, ?_⟩
      simpa [size, atleast1d_data] using h2

omit [Elem α] in
theorem checkFlat_vec {l : List α} {n : Nat} (h : l.length = n) : checkFlat (vec l) n = .ok (vec l) := by
  simp [checkFlat, h, pure, Except.pure]

omit [Elem α] in
theorem slice_eq_chunk (x : NDArray α) (i k : Nat) : x.slice (i * k) k = vec (chunk k x.data i) := rfl

omit [Elem α] in
theorem stack_reshape {n : Nat} {bshape s : List Nat} {parts : List (NDArray α)} (hn : s.prod = n)
    (hl : parts.length = n) (hsh : ∀ a ∈ parts, a.shape = bshape) (hw : ∀ a ∈ parts, a.data.length = bshape.prod) :
    (NDArray.stack parts >>= fun st => st.reshape (s ++ bshape)) =
      (.ok ⟨s ++ bshape, parts.flatMap (·.data)⟩ : Except Err (NDArray α)) := by
  have hlen : (parts.flatMap (·.data)).length = n * bshape.prod := by
    rw [← hl]; clear hl hsh
    induction parts with
    | nil => simp
    | cons a l ih =>
      simp only [List.flatMap_cons, List.length_append, List.length_cons]
      rw [ih (fun b hb => hw b (by simp [hb])), hw a (by simp)]; ring
  have hpr : (s ++ bshape).prod = n * bshape.prod := by rw [List.prod_append, hn]
  cases parts with
  | nil => simp at hl; simp [stack, reshape, bind, Except.bind, hpr, ← hl]
  | cons a as =>
    have : (as.all fun b => b.shape == a.shape) = true := by
      simp only [List.all_eq_true, beq_iff_eq]
      intro b hb
      rw [hsh b (by simp [hb]), hsh a (by simp)]
    simp only [stack, this, if_true, bind, Except.bind, reshape, hlen, hpr]

omit [Elem α] in
/-- `foldItems` when every item folds. -/
theorem foldItems_eq {f : NDArray α → Except Err (Val α)} {x : NDArray α} {s bshape : List Nat} {len : Nat}
    {g : Nat → List α} (hf : ∀ i < s.prod, f (vec (chunk len x.data i)) = .ok (.arr ⟨bshape, g i⟩))
    (hg : ∀ i < s.prod, (g i).length = bshape.prod) :
    foldItems f x s (s ++ bshape) len = .ok ⟨s ++ bshape, (List.range s.prod).flatMap g⟩ := by
  have h1 := mapE_productRanges s (fun i => (f (x.slice (i * len) len) >>= fun v => v.asArr))
  have h2 : mapE (fun i => (f (x.slice (i * len) len) >>= fun v => v.asArr)) (List.range s.prod) =
      .ok ((List.range s.prod).map fun i => ⟨bshape, g i⟩) := by
    apply mapE_ok_of
    intro i hi
    rw [slice_eq_chunk, hf i (List.mem_range.mp hi)]; rfl
  have h3 := stack_reshape (α := α) (n := s.prod) (bshape := bshape) (s := s)
    (parts := (List.range s.prod).map fun i => ⟨bshape, g i⟩) rfl (by simp)
    (by simp) (by simpa using hg)
  unfold foldItems
  rw [h1, h2]
  simp only [bind, Except.bind] at h3 ⊢
  rw [h3]
  simp [List.flatMap_map]

omit [Elem α] in
/-- If `foldItems` succeeds, every item folded. -/
theorem foldItems_ok {f : NDArray α → Except Err (Val α)} {x : NDArray α} {s sh : List Nat} {len : Nat}
    {a : NDArray α} (h : foldItems f x s sh len = .ok a) :
    ∀ i < s.prod, ∃ b, f (vec (chunk len x.data i)) = .ok (.arr b) := by
  have h1 := mapE_productRanges s (fun i => (f (x.slice (i * len) len) >>= fun v => v.asArr))
  unfold foldItems at h
  rw [h1] at h
  intro i hi
  cases h2 : mapE (fun i => (f (x.slice (i * len) len) >>= fun v => v.asArr)) (List.range s.prod) with
  | error e => rw [h2] at h; simp [bind, Except.bind] at h
  | ok bs =>
    obtain ⟨b, hb⟩ := mapE_ok_mem h2 (List.mem_range.mpr hi)
    rw [slice_eq_chunk] at hb
    simp only [bind, Except.bind] at hb
    split at hb
    · cases hb
    · next v hv => rw [asArr_ok] at hb; exact ⟨b, by rw [hv, hb]⟩

/-! #### fold, leaves -/

omit [Elem α] in
theorem reshape_ok {x y : NDArray α} {s : List Nat} : x.reshape s = .ok y ↔ x.data.length = s.prod ∧ y = ⟨s, x.data⟩ := by
  unfold reshape
  split
  · next h => simp [h, eq_comm]
  · next h => simp [h]

theorem numeric_foldNF_ok {s : List Nat} {lb ub : Flt} {dv : Bool} {x a : NDArray α} {vv} :
    Numeric.foldNF s lb ub dv x vv = .ok a ↔
      x.atleast1d.ndim = 1 ∧ x.data.length = s.prod ∧ a = ⟨s, x.data⟩ ∧
        Numeric.validate s lb ub dv a vv = (true, "") := by
  simp only [Numeric.foldNF, bind, Except.bind, throw, throwThe, MonadExceptOf.throw, pure, Except.pure]
  split
  · next h => simp [show x.atleast1d.ndim ≠ 1 from h]
  next h1 =>
  have h1 : x.atleast1d.ndim = 1 := by simpa using h1
  split
  · next h =>
    have h : x.data.length ≠ s.prod := by simpa [size, atleast1d_data] using h
    simp [h]
  next h2 =>
  have h2 : x.data.length = s.prod := by simpa [size, atleast1d_data] using h2
  have h3 : x.atleast1d.reshape s = .ok ⟨s, x.data⟩ := by
    rw [reshape_ok]; simp [atleast1d_data, h2]
  simp only [h3, h1, h2, true_and]
  rcases hv : Numeric.validate s lb ub dv ⟨s, x.data⟩ vv with ⟨b, m⟩
  cases b
  · simp only [Bool.not_false, if_true, reduceCtorEq, false_iff, not_and]
    rintro rfl; simp [hv]
  · have hm : m = "" := (numeric_validate_true.mp hv).1
    subst hm
    simp only [Bool.not_true, Bool.false_eq_true, if_false, Except.ok.injEq]
    constructor
    · rintro rfl; exact ⟨rfl, hv⟩
    · exact fun h => h.1.symm

theorem simplex_foldNF_ok {k : Nat} {s : List Nat} {dv : Bool} {x a : NDArray α} {vv} :
    Simplex.foldNF k s dv x vv = .ok a ↔
      x.len = .ok (s ++ [k]).prod ∧ x.data.length = (s ++ [k]).prod ∧ a = ⟨s ++ [k], x.data⟩ ∧
        Simplex.validate k s dv a vv = .ok (true, "") := by
  simp only [Simplex.foldNF, bind, Except.bind, throw, throwThe, MonadExceptOf.throw, pure, Except.pure]
  cases hlen : x.len with
  | error e => simp
  | ok n =>
    simp only [Except.ok.injEq]
    by_cases hn : n = (s ++ [k]).prod
    · by_cases hd : x.data.length = (s ++ [k]).prod
      · have h3 : x.reshape (s ++ [k]) = .ok ⟨s ++ [k], x.data⟩ := by rw [reshape_ok]; simp [hd]
        simp only [h3, hn, hd, ne_eq, not_true_eq_false, if_false, true_and]
        rcases hv : Simplex.validate k s dv ⟨s ++ [k], x.data⟩ vv with e | ⟨b, m⟩
        · simp only [reduceCtorEq, false_iff, not_and]
          rintro rfl; simp [hv]
        · cases b
          · simp only [Bool.not_false, if_true, reduceCtorEq, false_iff, not_and]
            rintro rfl; simp [hv]
          · have hm : m = "" := (simplex_validate_true.mp hv).1
            subst hm
            simp only [Bool.not_true, Bool.false_eq_true, if_false, Except.ok.injEq]
            constructor
            · rintro rfl; exact ⟨rfl, hv⟩
            · exact fun h => h.1.symm
      · have h3 : x.reshape (s ++ [k]) = .error (.valueError "cannot reshape array") := by
          unfold reshape; simp only [hd, if_false]
        simp only [h3, hn, hd, ne_eq, not_true_eq_false, if_false, reduceCtorEq, false_and, and_false]
    · simp only [hn, ne_eq, not_false_eq_true, if_true, reduceCtorEq, false_and]

theorem psd_foldNF_ok {n : Nat} {lb : Flt} {dv : Bool} {x a : NDArray α} {vv} :
    PSD.foldNF n lb dv x vv = .ok a ↔
      x.atleast1d.ndim = 1 ∧ x.data.length = n ^ 2 ∧ a = ⟨[n, n], x.data⟩ ∧
        PSD.validate n lb dv a vv = .ok (true, "") := by
  simp only [PSD.foldNF, bind, Except.bind, throw, throwThe, MonadExceptOf.throw, pure, Except.pure]
  split
  · next h => simp [show x.atleast1d.ndim ≠ 1 from h]
  next h1 =>
  have h1 : x.atleast1d.ndim = 1 := by simpa using h1
  split
  · next h =>
    have h : x.data.length ≠ n ^ 2 := by simpa [size, atleast1d_data] using h
    simp [h]
  next h2 =>
  have h2 : x.data.length = n ^ 2 := by simpa [size, atleast1d_data] using h2
  have h3 : x.atleast1d.reshape [n, n] = .ok ⟨[n, n], x.data⟩ := by
    rw [reshape_ok]; simp [atleast1d_data, h2, sq]
  simp only [h3, h1, h2, true_and]
  rcases hv : PSD.validate n lb dv ⟨[n, n], x.data⟩ vv with e | ⟨b, m⟩
  · simp only [reduceCtorEq, false_iff, not_and]
    rintro rfl; simp [hv]
  cases b
  · simp only [Bool.not_false, if_true, reduceCtorEq, false_iff, not_and]
    rintro rfl; simp [hv]
  · have hm : m = "" := (psd_validate_true.mp hv).1
    subst hm
    simp only [Bool.not_true, Bool.false_eq_true, if_false, Except.ok.injEq]
    constructor
    · rintro rfl; exact ⟨rfl, hv⟩
    · exact fun h => h.1.symm

theorem acc_numeric_arr {c s lb ub dv fd} {a : NDArray α} {vv} :
    Acc (.numeric c s lb ub dv fd) (.arr a) vv ↔ Numeric.validate s lb.toFlt ub.toFlt dv a vv = (true, "") := by
  rw [acc_numeric, numeric_validate_true]; simp

theorem acc_simplex_arr {k s dv fd} {a : NDArray α} {vv} :
    Acc (.simplex k s dv fd) (.arr a) vv ↔ Simplex.validate k s dv a vv = .ok (true, "") := by
  rw [acc_simplex, simplex_validate_true]; simp

theorem acc_psd_arr {n lb dv fd} {a : NDArray α} {vv} :
    Acc (.psd n lb dv fd) (.arr a) vv ↔ PSD.validate n lb.toFlt dv a vv = .ok (true, "") := by
  rw [acc_psd, psd_validate_true]; simp

/-! #### lookups -/

omit [Elem α] in
theorem lookup_cons_ne {k k' : String} {v : Val α} {vs : List (String × Val α)} (h : k' ≠ k) :
    ((k, v) :: vs).lookup k' = vs.lookup k' := by
  have : (k' == k) = false := by simp [h]
  simp only [List.lookup, this]

theorem accEs_cons_irrel {k : String} {v : Val α} {es : Entries} {vs : List (String × Val α)} {vv}
    (h : k ∉ es.keys) : AccEs es ((k, v) :: vs) vv ↔ AccEs es vs vv := by
  match es with
  | .nil => simp [AccEs]
  | .cons k' p r =>
    simp only [Entries.keys, Entries.toList, List.map_cons, List.mem_cons, not_or] at h
    have ih := accEs_cons_irrel (k := k) (v := v) (es := r) (vs := vs) (vv := vv) h.2
    simp only [AccEs, ih, lookup_cons_ne (Ne.symm h.1)]

omit [Elem α] in
theorem flatEs_cons_irrel {k : String} {v : Val α} {es : Entries} {vs : List (String × Val α)}
    (h : k ∉ es.keys) : flatEs es ((k, v) :: vs) = flatEs es vs := by
  match es with
  | .nil => simp [flatEs]
  | .cons k' p r =>
    simp only [Entries.keys, Entries.toList, List.map_cons, List.mem_cons, not_or] at h
    have ih := flatEs_cons_irrel (k := k) (v := v) (es := r) (vs := vs) h.2
    simp only [flatEs, ih, lookup_cons_ne (Ne.symm h.1)]

theorem nodup_keys_cons {k : String} {p : Pattern} {r : Entries} (h : (Entries.cons k p r).keys.Nodup) :
    k ∉ r.keys ∧ r.keys.Nodup := by
  simpa [Entries.keys, Entries.toList] using h

/-! #### fold, everything -/

theorem foldNFEs_nil (x : NDArray α) (vv) (off) : foldNFEs .nil x vv off = .ok [] := by
  simp [foldNFEs]

theorem foldNF_array_unfold {s : List Nat} {base : Pattern} {fd} {x : NDArray α} {vv} :
    (Pattern.array s base fd).foldNF x vv = (do
      let x ← checkFlat x (s.prod * base.flatLen false)
      let a ← foldItems (fun sub => base.foldNF sub vv) x s (s ++ base.shape) (base.flatLen false)
      requireValid ((Pattern.array s base fd).validate (.arr a) vv)
      return .arr a) := by
  rw [foldNF]

theorem foldNF_dict_unfold {es l fd} {x : NDArray α} {vv} :
    (Pattern.dict es l fd).foldNF x vv = (do
      let x ← checkFlat x (flatLenEs es false)
      let vs ← foldNFEs es x vv 0
      requireValid ((Pattern.dict es l fd).validate (.dict vs) vv)
      return .dict vs) := by
  rw [foldNF]

omit [Elem α] in
theorem bind_ok {ε β γ : Type _} {r : Except ε β} {f : β → Except ε γ} {c : γ} (h : (r >>= f) = .ok c) :
    ∃ b, r = .ok b ∧ f b = .ok c := by
  cases r with
  | error e => simp [bind, Except.bind] at h
  | ok b => exact ⟨b, rfl, h⟩

/-- A successful non-free fold is the plain reshape, has the right size, and its result is accepted. -/
theorem foldNF_ok_imp (p : Pattern) (hw : p.WF) : ∀ (x : NDArray α) (vv) (v : Val α), p.foldNF x vv = .ok v →
      x.data.length = p.flatLen false ∧ v = p.unflat x.data ∧ Acc p v vv := by
  revert hw
  induction p using Pattern.ind
    (Q := fun es => WFEs es → ∀ (x : NDArray α) (vv) (off : Nat) vs, foldNFEs es x vv off = .ok vs →
      vs = unflatEs es (x.data.drop off)) with
  | hnum c s lb ub dv fd =>
    intro _ x vv v h
    simp only [foldNF] at h; obtain ⟨a, h1, h2⟩ := bind_ok h
    rw [numeric_foldNF_ok] at h1
    cases h2
    obtain ⟨_, h3, rfl, h4⟩ := h1
    exact ⟨by simp [flatLen, h3], rfl, acc_numeric_arr.mpr h4⟩
  | hsim k s dv fd =>
    intro _ x vv v h
    simp only [foldNF] at h; obtain ⟨a, h1, h2⟩ := bind_ok h
    rw [simplex_foldNF_ok] at h1
    cases h2
    obtain ⟨_, h3, rfl, h4⟩ := h1
    exact ⟨by simp [flatLen, h3], rfl, acc_simplex_arr.mpr h4⟩
  | hpsd n lb dv fd =>
    intro _ x vv v h
    simp only [foldNF] at h; obtain ⟨a, h1, h2⟩ := bind_ok h
    rw [psd_foldNF_ok] at h1
    cases h2
    obtain ⟨_, h3, rfl, h4⟩ := h1
    exact ⟨by simp [flatLen, h3], rfl, acc_psd_arr.mpr h4⟩
  | harr s b fd ih =>
    intro hw x vv v h
    simp only [WF] at hw
    rw [foldNF_array_unfold] at h
    replace h := bind_ok h; obtain ⟨y, h1, h⟩ := h
    replace h := bind_ok h; obtain ⟨a, h2, h⟩ := h
    replace h := bind_ok h; obtain ⟨_, h3, h⟩ := h
    cases h
    obtain ⟨rfl, _, hl⟩ := checkFlat_ok h1
    have hb := foldItems_ok h2
    have hacc : Acc (.array s b fd) (.arr a) vv := requireValid_ok_iff.mp h3
    have hbl := flatLen_false hw.2.1 hw.2.2
    have hchunk : ∀ i < s.prod, (chunk (b.flatLen false) x.atleast1d.data i).length = b.shape.prod := by
      intro i hi
      rw [length_chunk (n := s.prod) (by rw [atleast1d_data, hl]) hi, hbl]
    have heq := foldItems_eq (f := fun sub => b.foldNF sub vv) (x := x.atleast1d) (s := s) (bshape := b.shape)
      (len := b.flatLen false) (g := chunk (b.flatLen false) x.atleast1d.data) (by
        intro i hi
        obtain ⟨c, hc⟩ := hb i hi
        have := (ih hw.2.2 _ _ _ hc).2.1
        rw [unflat_of_not_dict hw.2.1] at this
        simp only [hc, this]; rfl) hchunk
    rw [h2] at heq
    cases heq
    rw [chunk_flatMap _ _ _ (by rw [atleast1d_data, hl]), atleast1d_data]
    rw [chunk_flatMap _ _ _ (by rw [atleast1d_data, hl]), atleast1d_data] at hacc
    exact ⟨by simp [flatLen, hl], rfl, hacc⟩
  | hdict es l fd ih =>
    intro hw x vv v h
    simp only [WF] at hw
    rw [foldNF_dict_unfold] at h
    replace h := bind_ok h; obtain ⟨y, h1, h⟩ := h
    replace h := bind_ok h; obtain ⟨vs, h2, h⟩ := h
    replace h := bind_ok h; obtain ⟨_, h3, h⟩ := h
    cases h
    obtain ⟨rfl, _, hl⟩ := checkFlat_ok h1
    refine ⟨by simp [flatLen, hl], ?_, requireValid_ok_iff.mp h3⟩
    have := ih hw.2 _ _ _ _ h2
    rw [atleast1d_data, List.drop_zero] at this
    simp [unflat, this]
  | hnil _ x vv off vs h =>
    simp [foldNFEs] at h
    simp [unflatEs, h]
  | hcons k p r ihp ihr hw x vv off vs h =>
    simp only [WFEs] at hw
    rw [foldNFEs] at h
    replace h := bind_ok h; obtain ⟨v, h1, h⟩ := h
    replace h := bind_ok h; obtain ⟨vs', h2, h⟩ := h
    cases h
    have e1 := (ihp hw.1 _ _ _ h1).2.1
    have e2 := ihr hw.2.2 _ _ _ _ h2
    simp only [unflatEs, List.drop_drop, e1, e2]
    rfl

/-- A vector of the right length whose reshape is accepted folds to that reshape. -/
theorem foldNF_eq (p : Pattern) (hw : p.WF) : ∀ (l : List α) (vv), l.length = p.flatLen false →
      Acc p (p.unflat l) vv → p.foldNF (vec l) vv = .ok (p.unflat l) := by
  revert hw
  induction p using Pattern.ind
    (Q := fun es => WFEs es → es.keys.Nodup → ∀ (x : NDArray α) (vv) (off : Nat),
      off + flatLenEs es false ≤ x.data.length → AccEs es (unflatEs es (x.data.drop off)) vv →
      foldNFEs es x vv off = .ok (unflatEs es (x.data.drop off))) with
  | hnum c s lb ub dv fd =>
    intro _ l vv hl ha
    have : Numeric.foldNF s lb.toFlt ub.toFlt dv (vec l) vv = .ok ⟨s, l⟩ := by
      rw [numeric_foldNF_ok]
      exact ⟨rfl, by simpa [flatLen] using hl, rfl, acc_numeric_arr.mp ha⟩
    simp only [foldNF, this]; rfl
  | hsim k s dv fd =>
    intro _ l vv hl ha
    have : Simplex.foldNF k s dv (vec l) vv = .ok ⟨s ++ [k], l⟩ := by
      rw [simplex_foldNF_ok]
      have hl : l.length = (s ++ [k]).prod := by simpa [flatLen] using hl
      exact ⟨by rw [vec_len, hl], hl, rfl, acc_simplex_arr.mp ha⟩
    simp only [foldNF, this]; rfl
  | hpsd n lb dv fd =>
    intro _ l vv hl ha
    have : PSD.foldNF n lb.toFlt dv (vec l) vv = .ok ⟨[n, n], l⟩ := by
      rw [psd_foldNF_ok]
      exact ⟨rfl, by simpa [flatLen] using hl, rfl, acc_psd_arr.mp ha⟩
    simp only [foldNF, this]; rfl
  | harr s b fd ih =>
    intro hw l vv hl ha
    simp only [WF] at hw
    have hbl := flatLen_false hw.2.1 hw.2.2
    have hl' : l.length = s.prod * b.flatLen false := by simpa [flatLen] using hl
    have hacc := ha
    simp only [unflat] at ha
    rw [acc_array] at ha
    obtain ⟨a, hae, _, ha⟩ := ha
    cases hae
    have hchunk : ∀ i < s.prod, (chunk (b.flatLen false) l i).length = b.shape.prod := by
      intro i hi
      rw [length_chunk (n := s.prod) hl' hi, hbl]
    have heq := foldItems_eq (f := fun sub => b.foldNF sub vv) (x := vec l) (s := s) (bshape := b.shape)
      (len := b.flatLen false) (g := chunk (b.flatLen false) l) (by
        intro i hi
        have := ih hw.2.2 (chunk (b.flatLen false) l i) vv (by rw [hchunk i hi, hbl]) (by
          rw [unflat_of_not_dict hw.2.1]; have := ha i hi; rw [← hbl] at this; exact this)
        rw [unflat_of_not_dict hw.2.1] at this
        exact this) hchunk
    rw [chunk_flatMap _ _ _ hl'] at heq
    rw [foldNF_array_unfold, checkFlat_vec hl']
    simp only [bind, Except.bind, heq]
    have : requireValid ((Pattern.array s b fd).validate (.arr ⟨s ++ b.shape, l⟩) vv) = .ok () :=
      requireValid_ok_iff.mpr hacc
    rw [this]; rfl
  | hdict es lk fd ih =>
    intro hw l vv hl ha
    simp only [WF] at hw
    have hl' : l.length = flatLenEs es false := by simpa [flatLen] using hl
    have hacc := ha
    simp only [unflat] at ha hacc
    rw [acc_dict] at ha
    obtain ⟨vs, hvs, ha⟩ := ha
    cases hvs
    have := ih hw.2 hw.1 (vec l) vv 0 (by simp [hl']) (by simpa using ha)
    rw [foldNF_dict_unfold, checkFlat_vec hl']
    simp only [bind, Except.bind, this]
    have : requireValid ((Pattern.dict es lk fd).validate (.dict (unflatEs es l)) vv) = .ok () :=
      requireValid_ok_iff.mpr hacc
    simp only [vec_data, List.drop_zero]
    rw [this]
    simp [pure, Except.pure, unflat]
  | hnil _ _ x vv off _ _ =>
    simp [foldNFEs, unflatEs]
  | hcons k p r ihp ihr hw hk x vv off hl ha =>
    simp only [WFEs] at hw
    simp only [flatLenEs] at hl
    obtain ⟨hk1, hk2⟩ := nodup_keys_cons hk
    simp only [unflatEs, AccEs] at ha
    obtain ⟨⟨v, hv, hpa⟩, ha⟩ := ha
    simp only [List.lookup_cons_self, Option.some.injEq] at hv
    subst hv
    rw [accEs_cons_irrel hk1, List.drop_drop] at ha
    have h1 := ihp hw.1 _ vv (by simp; omega) hpa
    have h2 := ihr hw.2.2 hk2 x vv (off + p.flatLen false) (by omega) ha
    have h1' : p.foldNF (x.slice off (p.flatLen false)) vv = .ok (p.unflat ((x.data.drop off).take (p.flatLen false))) := h1
    rw [foldNFEs, h1']
    simp only [bind, Except.bind, h2, unflatEs, List.drop_drop]
    rfl

/-! #### flatten -/

omit [Elem α] in
theorem flattenItems_eq {f : Val α → Except Err (NDArray α)} {a : NDArray α} {s bshape : List Nat}
    (ha : a.shape = s ++ bshape) {g : Nat → List α}
    (hf : ∀ i < s.prod, f (.arr ⟨bshape, chunk bshape.prod a.data i⟩) = .ok (vec (g i))) (hs : 0 < s.prod) :
    flattenItems f a s = .ok (vec ((List.range s.prod).flatMap g)) := by
  have h0 : mapE (fun item => (a.getItem item >>= fun sub => f (.arr sub))) (productRanges s) =
      mapE (fun item => f (.arr ⟨bshape, chunk bshape.prod a.data (ravel s item)⟩)) (productRanges s) := by
    apply mapE_congr
    intro item hi
    rw [getItem_eq ha hi]; rfl
  have h1 := mapE_productRanges s (fun i => f (.arr ⟨bshape, chunk bshape.prod a.data i⟩))
  have h2 : mapE (fun i => f (.arr ⟨bshape, chunk bshape.prod a.data i⟩)) (List.range s.prod) =
      .ok ((List.range s.prod).map fun i => vec (g i)) :=
    mapE_ok_of (fun i hi => hf i (List.mem_range.mp hi))
  unfold flattenItems
  rw [h0, h1, h2]
  simp only [bind, Except.bind, hstack]
  split
  · next h =>
    have := congrArg List.length h
    simp only [List.length_map, List.length_range, List.length_nil] at this; omega
  · simp [List.flatMap_map]

omit [Elem α] in
theorem flattenItems_ok {f : Val α → Except Err (NDArray α)} {a x : NDArray α} {s bshape : List Nat}
    (ha : a.shape = s ++ bshape) (h : flattenItems f a s = .ok x) :
    0 < s.prod ∧ ∀ i < s.prod, ∃ y, f (.arr ⟨bshape, chunk bshape.prod a.data i⟩) = .ok y := by
  have h0 : mapE (fun item => (a.getItem item >>= fun sub => f (.arr sub))) (productRanges s) =
      mapE (fun item => f (.arr ⟨bshape, chunk bshape.prod a.data (ravel s item)⟩)) (productRanges s) := by
    apply mapE_congr
    intro item hi
    rw [getItem_eq ha hi]; rfl
  have h1 := mapE_productRanges s (fun i => f (.arr ⟨bshape, chunk bshape.prod a.data i⟩))
  unfold flattenItems at h
  rw [h0, h1] at h
  replace h := bind_ok h; obtain ⟨parts, h2, h⟩ := h
  refine ⟨?_, fun i hi => mapE_ok_mem h2 (List.mem_range.mpr hi)⟩
  rcases Nat.eq_zero_or_pos s.prod with h0 | h0
  · rw [h0] at h2; simp [mapE] at h2; subst h2; simp [hstack] at h
  · exact h0

theorem numeric_flattenNF_ok {s : List Nat} {lb ub : Flt} {dv : Bool} {a x : NDArray α} {vv} :
    Numeric.flattenNF s lb ub dv a vv = .ok x ↔
      Numeric.validate s lb ub dv a vv = (true, "") ∧ x = vec a.data := by
  have e : Numeric.validate s lb ub dv a.atleast1d vv = Numeric.validate s lb ub dv a vv := by
    have : a.atleast1d.atleast1d = a.atleast1d := atleast1d_of_ne (atleast1d_shape_ne_nil a)
    unfold Numeric.validate; rw [this]
  simp only [Numeric.flattenNF, e, bind, Except.bind, throw, throwThe, MonadExceptOf.throw, pure, Except.pure]
  rcases hv : Numeric.validate s lb ub dv a vv with ⟨b, m⟩
  cases b
  · simp
  · have hm : m = "" := (numeric_validate_true.mp hv).1
    subst hm
    simp [NDArray.flatten, atleast1d_data, eq_comm]

theorem simplex_flattenNF_ok {k : Nat} {s : List Nat} {dv : Bool} {a x : NDArray α} {vv} :
    Simplex.flattenNF k s dv a vv = .ok x ↔ Simplex.validate k s dv a vv = .ok (true, "") ∧ x = vec a.data := by
  simp only [Simplex.flattenNF, bind, Except.bind, throw, throwThe, MonadExceptOf.throw, pure, Except.pure]
  rcases hv : Simplex.validate k s dv a vv with e | ⟨b, m⟩
  · simp
  cases b
  · simp
  · have hm : m = "" := (simplex_validate_true.mp hv).1
    subst hm
    simp [NDArray.flatten, eq_comm]

theorem psd_flattenNF_ok {n : Nat} {lb : Flt} {dv : Bool} {a x : NDArray α} {vv} :
    PSD.flattenNF n lb dv a vv = .ok x ↔ PSD.validate n lb dv a vv = .ok (true, "") ∧ x = vec a.data := by
  simp only [PSD.flattenNF, bind, Except.bind, throw, throwThe, MonadExceptOf.throw, pure, Except.pure]
  rcases hv : PSD.validate n lb dv a vv with e | ⟨b, m⟩
  · simp
  cases b
  · simp
  · have hm : m = "" := (psd_validate_true.mp hv).1
    subst hm
    simp [NDArray.flatten, eq_comm]

theorem flattenNF_array_unfold {s : List Nat} {base : Pattern} {fd} {v : Val α} {vv} :
    (Pattern.array s base fd).flattenNF v vv = (do
      requireValid ((Pattern.array s base fd).validate v vv)
      let a ← v.asArr
      flattenItems (fun sub => base.flattenNF sub vv) a s) := by
  rw [flattenNF]

theorem flattenNF_dict_unfold {es l fd} {v : Val α} {vv} :
    (Pattern.dict es l fd).flattenNF v vv = (do
      requireValid ((Pattern.dict es l fd).validate v vv)
      let vs ← v.asDict
      let parts ← flattenNFEs es vs vv
      NDArray.hstack parts) := by
  rw [flattenNF]

omit [Elem α] in
theorem WFEs_lookup {vs : List (String × Val α)} (h : Val.WFEs vs) {k v} (hl : vs.lookup k = some v) : v.WF := by
  induction vs with
  | nil => simp at hl
  | cons kv vs ih =>
    obtain ⟨k', v'⟩ := kv
    simp only [Val.WFEs] at h
    rw [List.lookup_cons] at hl
    split at hl
    · cases hl; exact h.1
    · exact ih h.2 hl

omit [Elem α] in
theorem chunk_wf {a : NDArray α} {s bs : List Nat} (hw : a.WF) (hs : a.shape = s ++ bs) {i : Nat} (hi : i < s.prod) :
    (Val.arr (⟨bs, chunk bs.prod a.data i⟩ : NDArray α)).WF := by
  simp only [Val.WF, NDArray.WF]
  exact length_chunk (by rw [hw, hs, List.prod_append]) hi

/-- Non-free flatten succeeds on accepted values (no empty container) and returns the entries in order. -/
theorem flattenNF_eq (p : Pattern) (hw : p.WF) : ∀ (v : Val α) (vv), v.WF → p.NoEmpty → Acc p v vv →
    p.flattenNF v vv = .ok (vec (p.flat v)) := by
  revert hw
  induction p using Pattern.ind
    (Q := fun es => WFEs es → ∀ (vs : List (String × Val α)) (vv), Val.WFEs vs → NoEmptyEs es → AccEs es vs vv →
      ∃ parts, flattenNFEs es vs vv = .ok parts ∧ parts.flatMap (·.data) = flatEs es vs ∧
        (es ≠ .nil → parts ≠ [])) with
  | hnum c s lb ub dv fd =>
    intro _ v vv hv _ ha
    have hacc := ha; rw [acc_numeric] at ha; obtain ⟨a, rfl, _⟩ := ha
    simp only [flattenNF, Val.asArr, bind, Except.bind]
    rw [numeric_flattenNF_ok]
    exact ⟨acc_numeric_arr.mp hacc, rfl⟩
  | hsim k s dv fd =>
    intro _ v vv hv _ ha
    have hacc := ha; rw [acc_simplex] at ha; obtain ⟨a, rfl, _⟩ := ha
    simp only [flattenNF, Val.asArr, bind, Except.bind]
    rw [simplex_flattenNF_ok]
    exact ⟨acc_simplex_arr.mp hacc, rfl⟩
  | hpsd n lb dv fd =>
    intro _ v vv hv _ ha
    have hacc := ha; rw [acc_psd] at ha; obtain ⟨a, rfl, _⟩ := ha
    simp only [flattenNF, Val.asArr, bind, Except.bind]
    rw [psd_flattenNF_ok]
    exact ⟨acc_psd_arr.mp hacc, rfl⟩
  | harr s b fd ih =>
    intro hw v vv hv hne ha
    simp only [WF] at hw
    simp only [NoEmpty] at hne
    have hacc := ha
    rw [acc_array] at ha; obtain ⟨a, rfl, hs, ha⟩ := ha
    simp only [Val.WF] at hv
    rw [flattenNF_array_unfold, requireValid_ok_iff.mpr hacc]
    simp only [bind, Except.bind, Val.asArr]
    rw [flattenItems_eq hs (g := fun i => chunk b.shape.prod a.data i) (fun i hi => ?_) hne.1]
    · rw [chunk_flatMap _ _ _ (by rw [hv, hs, List.prod_append])]; rfl
    · rw [ih hw.2.2 _ vv (chunk_wf hv hs hi) hne.2 (ha i hi), flat_arr _ _ hw.2.1]
  | hdict es l fd ih =>
    intro hw v vv hv hne ha
    simp only [WF] at hw
    simp only [NoEmpty] at hne
    have hacc := ha
    rw [acc_dict] at ha; obtain ⟨vs, rfl, ha⟩ := ha
    simp only [Val.WF] at hv
    obtain ⟨parts, h1, h2, h3⟩ := ih hw.2 vs vv hv hne.2 ha
    rw [flattenNF_dict_unfold, requireValid_ok_iff.mpr hacc]
    simp only [bind, Except.bind, Val.asDict, h1, hstack]
    have := h3 hne.1
    split
    · contradiction
    · simp [h2, flat]
  | hnil _ vs vv _ _ _ =>
    exact ⟨[], by simp [flattenNFEs], by simp [flatEs], by simp⟩
  | hcons k p r ihp ihr hw vs vv hv hne ha =>
    simp only [WFEs] at hw
    simp only [NoEmptyEs] at hne
    simp only [AccEs] at ha
    obtain ⟨⟨v, hl, hpa⟩, ha⟩ := ha
    obtain ⟨parts, h1, h2, _⟩ := ihr hw.2.2 vs vv hv hne.2 ha
    have h3 := ihp hw.1 v vv (WFEs_lookup hv hl) hne.1 hpa
    refine ⟨vec (p.flat v) :: parts, ?_, ?_, by simp⟩
    · simp only [flattenNFEs, hl, bind, Except.bind, h3, h1]; rfl
    · simp [flatEs, hl, h2]

/-- A successful non-free flatten: the value was accepted, there is no empty container, and the result is the
entries in order. -/
theorem flattenNF_ok_imp (p : Pattern) (hw : p.WF) : ∀ (v : Val α) (vv) (x), v.WF → p.flattenNF v vv = .ok x →
    Acc p v vv ∧ p.NoEmpty := by
  revert hw
  induction p using Pattern.ind
    (Q := fun es => WFEs es → ∀ (vs : List (String × Val α)) (vv) parts, Val.WFEs vs →
      flattenNFEs es vs vv = .ok parts → NoEmptyEs es ∧ (es = .nil → parts = [])) with
  | hnum c s lb ub dv fd =>
    intro _ v vv x hv h
    simp only [flattenNF] at h
    replace h := bind_ok h; obtain ⟨a, h1, h⟩ := h
    rw [asArr_ok] at h1; subst h1
    rw [numeric_flattenNF_ok] at h
    exact ⟨acc_numeric_arr.mpr h.1, by simp [NoEmpty]⟩
  | hsim k s dv fd =>
    intro _ v vv x hv h
    simp only [flattenNF] at h
    replace h := bind_ok h; obtain ⟨a, h1, h⟩ := h
    rw [asArr_ok] at h1; subst h1
    rw [simplex_flattenNF_ok] at h
    exact ⟨acc_simplex_arr.mpr h.1, by simp [NoEmpty]⟩
  | hpsd n lb dv fd =>
    intro _ v vv x hv h
    simp only [flattenNF] at h
    replace h := bind_ok h; obtain ⟨a, h1, h⟩ := h
    rw [asArr_ok] at h1; subst h1
    rw [psd_flattenNF_ok] at h
    exact ⟨acc_psd_arr.mpr h.1, by simp [NoEmpty]⟩
  | harr s b fd ih =>
    intro hw v vv x hv h
    simp only [WF] at hw
    rw [flattenNF_array_unfold] at h
    replace h := bind_ok h; obtain ⟨_, h1, h⟩ := h
    replace h := bind_ok h; obtain ⟨a, h2, h⟩ := h
    rw [asArr_ok] at h2; subst h2
    have hacc : Acc (.array s b fd) (.arr a) vv := requireValid_ok_iff.mp h1
    refine ⟨hacc, ?_⟩
    obtain ⟨a', hae, hs, ha⟩ := acc_array.mp hacc
    cases hae
    obtain ⟨h0, hi⟩ := flattenItems_ok hs h
    simp only [NoEmpty]
    refine ⟨h0, ?_⟩
    obtain ⟨y, hy⟩ := hi 0 h0
    exact (ih hw.2.2 _ _ _ (chunk_wf hv hs h0) hy).2
  | hdict es l fd ih =>
    intro hw v vv x hv h
    simp only [WF] at hw
    rw [flattenNF_dict_unfold] at h
    replace h := bind_ok h; obtain ⟨_, h1, h⟩ := h
    replace h := bind_ok h; obtain ⟨vs, h2, h⟩ := h
    replace h := bind_ok h; obtain ⟨parts, h3, h⟩ := h
    cases v with
    | arr a => simp [Val.asDict] at h2
    | dict d =>
      simp only [Val.asDict, Except.ok.injEq] at h2; subst h2
      obtain ⟨h4, h5⟩ := ih hw.2 _ _ _ hv h3
      refine ⟨requireValid_ok_iff.mp h1, ?_⟩
      simp only [NoEmpty]
      refine ⟨?_, h4⟩
      intro he
      rw [h5 he] at h
      simp [hstack] at h
  | hnil _ vs vv parts _ h =>
    simp [flattenNFEs] at h
    simp [NoEmptyEs, h]
  | hcons k p r ihp ihr hw vs vv parts hv h =>
    simp only [WFEs] at hw
    rw [flattenNFEs] at h
    split at h
    · cases h
    · next v hl =>
      replace h := bind_ok h; obtain ⟨x, h1, h⟩ := h
      replace h := bind_ok h; obtain ⟨xs, h2, h⟩ := h
      simp only [NoEmptyEs]
      exact ⟨⟨(ihp hw.1 _ _ _ (WFEs_lookup hv hl) h1).2, (ihr hw.2.2 _ _ _ hv h2).1⟩, by simp⟩

/-! #### sizes -/

theorem length_flat (p : Pattern) (hw : p.WF) : ∀ (v : Val α) (vv), v.WF → Acc p v vv →
    (p.flat v).length = p.flatLen false := by
  revert hw
  induction p using Pattern.ind
    (Q := fun es => WFEs es → ∀ (vs : List (String × Val α)) (vv), Val.WFEs vs → AccEs es vs vv →
      (flatEs es vs).length = flatLenEs es false) with
  | hnum c s lb ub dv fd =>
    intro _ v vv hv ha
    rw [acc_numeric] at ha; obtain ⟨a, rfl, h1, _⟩ := ha
    have := atleast1d_wf hv
    simp only [NDArray.WF, h1, atleast1d_data] at this
    simpa [flatLen, flat] using this
  | hsim k s dv fd =>
    intro _ v vv hv ha
    rw [acc_simplex] at ha; obtain ⟨a, rfl, h1, _⟩ := ha
    simp only [Val.WF, NDArray.WF, h1] at hv
    simpa [flatLen, flat] using hv
  | hpsd n lb dv fd =>
    intro _ v vv hv ha
    rw [acc_psd] at ha; obtain ⟨a, rfl, h1, _⟩ := ha
    simp only [Val.WF, NDArray.WF, h1] at hv
    simpa [flatLen, flat, sq] using hv
  | harr s b fd ih =>
    intro hw v vv hv ha
    simp only [WF] at hw
    rw [acc_array] at ha; obtain ⟨a, rfl, h1, _⟩ := ha
    simp only [Val.WF, NDArray.WF, h1] at hv
    simp [flatLen, flat, hv, flatLen_false hw.2.1 hw.2.2]
  | hdict es l fd ih =>
    intro hw v vv hv ha
    simp only [WF] at hw
    rw [acc_dict] at ha; obtain ⟨vs, rfl, ha⟩ := ha
    simpa [flat, flatLen] using ih hw.2 vs vv hv ha
  | hnil _ vs vv _ _ =>  simp [flatEs, flatLenEs]
  | hcons k p r ihp ihr hw vs vv hv ha =>
    simp only [WFEs] at hw
    simp only [AccEs] at ha
    obtain ⟨⟨v, hl, hpa⟩, ha⟩ := ha
    simp [flatEs, hl, flatLenEs, ihr hw.2.2 vs vv hv ha, ihp hw.1 v vv (WFEs_lookup hv hl) hpa]

omit [Elem α] in
theorem unflat_wf (p : Pattern) (hw : p.WF) : ∀ (l : List α), l.length = p.flatLen false → (p.unflat l).WF := by
  revert hw
  induction p using Pattern.ind
    (Q := fun es => WFEs es → ∀ (l : List α), flatLenEs es false ≤ l.length → Val.WFEs (unflatEs es l)) with
  | hnum c s lb ub dv fd => intro _ l hl; simpa [unflat, Val.WF, NDArray.WF, shape, flatLen] using hl
  | hsim k s dv fd => intro _ l hl; simpa [unflat, Val.WF, NDArray.WF, shape, flatLen] using hl
  | hpsd n lb dv fd => intro _ l hl; simpa [unflat, Val.WF, NDArray.WF, shape, flatLen, sq] using hl
  | harr s b fd ih =>
    intro hw l hl
    simp only [WF] at hw
    simp [unflat, Val.WF, NDArray.WF, shape, hl, flatLen, flatLen_false hw.2.1 hw.2.2]
  | hdict es l fd ih =>
    intro hw l hl
    simp only [WF] at hw
    simp only [flatLen] at hl
    simpa [unflat, Val.WF] using ih hw.2 l hl.ge
  | hnil _ l _ =>  simp [unflatEs, Val.WFEs]
  | hcons k p r ihp ihr hw l hl =>
    simp only [WFEs] at hw
    simp only [flatLenEs] at hl
    simp only [unflatEs, Val.WFEs]
    exact ⟨ihp hw.1 _ (by simp; omega), ihr hw.2.2 _ (by simp; omega)⟩

omit [Elem α] in
theorem flat_unflat (p : Pattern) (hw : p.WF) : ∀ (l : List α), l.length = p.flatLen false →
    p.flat (p.unflat l) = l := by
  revert hw
  induction p using Pattern.ind
    (Q := fun es => WFEs es → es.keys.Nodup → ∀ (l : List α), l.length = flatLenEs es false →
      flatEs es (unflatEs es l) = l) with
  | hnum c s lb ub dv fd => intro _ l _; rfl
  | hsim k s dv fd => intro _ l _; rfl
  | hpsd n lb dv fd => intro _ l _; rfl
  | harr s b fd ih => intro _ l _; rfl
  | hdict es l fd ih =>
    intro hw l hl
    simp only [WF] at hw
    simp only [flatLen] at hl
    simpa [unflat, flat] using ih hw.2 hw.1 l hl
  | hnil _ _ l hl =>  simp [flatLenEs] at hl; simp [flatEs, hl]
  | hcons k p r ihp ihr hw hk l hl =>
    simp only [WFEs] at hw
    simp only [flatLenEs] at hl
    obtain ⟨hk1, hk2⟩ := nodup_keys_cons hk
    simp only [unflatEs, flatEs, List.lookup_cons_self, flatEs_cons_irrel hk1]
    rw [ihp hw.1 _ (by simp; omega), ihr hw.2.2 hk2 _ (by simp; omega), List.take_append_drop]

end

end Pattern

end Paragami
