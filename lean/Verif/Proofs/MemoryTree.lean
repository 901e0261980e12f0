import Verif.Proofs.Memory

/-!
# Memory-level `fold` and `flatten`: inductions over the pattern tree
-/

set_option linter.unusedSimpArgs false
set_option linter.unusedSectionVars false

namespace Paragami
namespace Memory
open Spec

/-! ### Sharing -/

theorem _root_.Paragami.Spec.Shares.append {n bs xs rs bs' xs' rs'} (h : Shares n bs xs rs) (h' : Shares n bs' xs' rs') :
    Shares n (bs ++ bs') (xs ++ xs') (rs ++ rs') := by
  induction h with
  | nil => exact h'
  | view a _ ih => exact Shares.view a ih
  | copy a b hb _ ih => exact Shares.copy a b hb ih

theorem _root_.Paragami.Spec.Shares.mono {n n' bs xs rs} (hn : n ≤ n') (h : Shares n' bs xs rs) : Shares n bs xs rs := by
  induction h with
  | nil => exact .nil
  | view a _ ih => exact Shares.view a ih
  | copy a b hb _ ih => exact Shares.copy a b (hn.trans hb) ih

theorem Shares.views (n : Nat) (xs : List Addr) : Shares n (List.replicate xs.length true) xs xs := by
  induction xs with
  | nil => exact .nil
  | cons a xs ih => exact Shares.view a ih

theorem Shares.copies {n : Nat} {xs rs : List Addr} (h : xs.length = rs.length) (hr : ∀ a ∈ rs, n ≤ a) :
    Shares n (List.replicate xs.length false) xs rs := by
  induction xs generalizing rs with
  | nil => cases rs with
    | nil => exact .nil
    | cons _ _ => simp at h
  | cons a xs ih => cases rs with
    | nil => simp at h
    | cons b rs =>
      exact Shares.copy a b (hr b (by simp)) (ih (by simpa using h) fun c hc => hr c (by simp [hc]))

/-- What `fold` guarantees about the addresses of its result. -/
structure FoldR (bs : List Bool) (free : Bool) (xs : List Addr) (m : Mem) (rs : List Addr) (m' : Mem) : Prop where
  sub : ∀ a ∈ rs, a ∈ xs ∨ (m.length ≤ a ∧ a < m'.length)
  fresh : free = true → ∀ a ∈ rs, m.length ≤ a
  nodup : xs.Nodup → (∀ a ∈ xs, a < m.length) → rs.Nodup
  shares : free = false → Shares m.length bs xs rs

theorem FoldR.alloc {bs free xs m rs m'} (h : FoldR bs free xs m rs m') (hp : m <+: m') (hx : Allocated m xs) :
    Allocated m' rs := fun a ha => by
  rcases h.sub a ha with h1 | h1
  · exact lt_of_lt_of_le (hx a h1) hp.length_le
  · exact h1.2

theorem FoldR.of_fresh {bs free xs m rs m'} (h : ∀ a ∈ rs, m.length ≤ a ∧ a < m'.length) (hn : rs.Nodup)
    (hs : free = false → Shares m.length bs xs rs) : FoldR bs free xs m rs m' :=
  ⟨fun a ha => Or.inr (h a ha), fun _ a ha => (h a ha).1, fun _ _ => hn, hs⟩

theorem FoldR.views {bs xs m m'} (hb : bs = List.replicate xs.length true) : FoldR bs false xs m xs m' :=
  ⟨fun a ha => Or.inl ha, fun h => by simp at h, fun h _ => h, fun _ => hb ▸ Shares.views _ _⟩

/-- The value-level `fold` with `free` resolved. -/
noncomputable def pureFold (p : Pattern) (x : NDArray Flt) (free : Bool) (vv : Option Bool) : Except Err (Val Flt) :=
  if free then p.foldFree x else p.foldNF x vv

noncomputable def pureFoldEs (es : Entries) (x : NDArray Flt) (free : Bool) (vv : Option Bool) (off : Nat) :
    Except Err (List (String × Val Flt)) :=
  if free then Pattern.foldFreeEs es x off else Pattern.foldNFEs es x vv off

/-- The value-level `flatten` with `free` resolved. -/
noncomputable def pureFlatten (p : Pattern) (v : Val Flt) (free : Bool) (vv : Option Bool) : Except Err (NDArray Flt) :=
  if free then p.flattenFree v vv else p.flattenNF v vv

noncomputable def pureFlattenEs (es : Entries) (vs : List (String × Val Flt)) (free : Bool) (vv : Option Bool) :
    Except Err (List (NDArray Flt)) :=
  if free then Pattern.flattenFreeEs es vs vv else Pattern.flattenNFEs es vs vv

theorem Ref.requireValid {p : Pattern} {v : Val Addr} {vv : Option Bool} {m : Mem} :
    Ref (requireValid p v vv) (Pattern.requireValid (p.validate (v.map (rd m)) vv)) m (fun _ m' _ => m' = m) :=
  (Ref.reading rfl).mono fun _ _ _ _ h => h.1

/-- `reshape` of addresses. -/
theorem Ref.reshape {a : NDArray Addr} {s : List Nat} {m : Mem} :
    Ref (Memory.lift (a.reshape s)) ((a.map (rd m)).reshape s) m
      (fun b m' g => m' = m ∧ g = b.map (rd m) ∧ b.data = a.data ∧ b.shape = s) := by
  refine Ref.lift (reshape_map _ _ _) ?_
  intro b hb
  simp only [NDArray.reshape] at hb
  split at hb <;> simp at hb
  subst hb
  exact ⟨rfl, rfl, rfl, rfl⟩

theorem constrainArray_ref {lb ub : Flt} {x : NDArray Addr} {m : Mem} :
    Ref (constrainArray lb ub x) (.ok ((x.map (rd m)).map (constrain1 lb ub))) m (Fresh m) := by
  unfold constrainArray
  split_ifs with h1 h2
  · refine Ref.allocate ?_
    simp [constrain1, h1, h2, NDArray.map]
  · exact Ref.allocate rfl
  · exact Ref.allocate rfl

theorem unconstrainArray_ref {lb ub : Flt} {x : NDArray Addr} {m : Mem} :
    Ref (unconstrainArray lb ub x) (.ok ((x.map (rd m)).map (unconstrain1 lb ub))) m (Fresh m) := by
  unfold unconstrainArray
  split_ifs with h1 h2
  · refine Ref.allocate ?_
    simp [unconstrain1, h1, h2, NDArray.map]
  · exact Ref.allocate rfl
  · exact Ref.allocate rfl

/-- The invariant of a fold of `p`. -/
def FoldInv (p : Pattern) : Prop := p.WF → ∀ (x : NDArray Addr) (free : Bool) (vv : Option Bool) (m : Mem), Allocated m x.data →
  Ref (fold p x free vv) (pureFold p (x.map (rd m)) free vv) m
    (fun r m' g => g = r.map (rd m') ∧ FoldR (viewMask p) free x.data m (leaves r) m')

/-- The invariant of the loop over a dictionary. -/
def FoldInvEs (es : Entries) : Prop := Pattern.WFEs es → ∀ (x : NDArray Addr) (free : Bool) (vv : Option Bool) (off : Nat) (m : Mem),
  Allocated m x.data → off + Pattern.flatLenEs es free = x.data.length →
  Ref (foldEs es x free vv off) (pureFoldEs es (x.map (rd m)) free vv off) m
    (fun r m' g => g = Val.mapEs (rd m') r ∧ FoldR (viewMaskEs es) free (x.data.drop off) m (leavesEs r) m')

theorem fold_inv (p : Pattern) : FoldInv p := by
  induction p using Pattern.ind (Q := FoldInvEs) with
  | hnum c s lb ub dv fd =>
    intro hw x free vv m hx
    cases free with
    | true =>
      have e : pureFold (.numeric c s lb ub dv fd) (x.map (rd m)) true vv =
          (checkFlatP "Wrong size for array." (x.map (rd m)) s.prod >>= fun x =>
            (Except.ok (x.map (constrain1 lb.toFlt ub.toFlt)) : Except Err _) >>= fun a => a.reshape s >>= fun a => .ok (.arr a)) := by
        simp only [pureFold, if_true, Pattern.foldFree, Numeric.foldFree, checkFlatP,
          bind, Except.bind, throw, throwThe, MonadExceptOf.throw, pure, Except.pure]
        split_ifs <;> rfl
      rw [e]
      unfold fold
      refine Ref.bind Ref.checkFlat ?_
      rintro b m1 g - ⟨rfl, rfl, hb, hbl⟩
      simp only [if_true]
      refine Ref.bind constrainArray_ref ?_
      rintro a m2 g h2 ⟨rfl, hf, hn⟩
      refine Ref.bind Ref.reshape ?_
      rintro r m3 g - ⟨rfl, rfl, hr, hs⟩
      refine Ref.ret ⟨rfl, ?_⟩
      simp only [leaves, hr]
      exact FoldR.of_fresh hf hn (by simp)
    | false =>
      simp only [pureFold, Bool.false_eq_true, if_false, numeric_foldNF_chain]
      unfold fold
      refine Ref.bind Ref.checkFlat ?_
      rintro b m1 g - ⟨rfl, rfl, hb, hbl⟩
      simp only [Bool.false_eq_true, if_false]
      refine Ref.bind Ref.reshape ?_
      rintro r m3 g - ⟨rfl, rfl, hr, hs⟩
      refine Ref.bind Ref.requireValid ?_
      rintro _ m4 _ - rfl
      refine Ref.ret ⟨rfl, ?_⟩
      simp only [leaves, hr, hb]
      refine FoldR.views ?_
      rw [← hb, hbl]; rfl
  | hsim k s dv fd =>
    intro hw x free vv m hx
    cases free with
    | true =>
      have e : pureFold (.simplex k s dv fd) (x.map (rd m)) true vv =
          ((x.map (rd m)).len >>= fun n =>
            if n ≠ (s ++ [k - 1]).prod then .error (.valueError "flat_val is the wrong length.") else
            (x.map (rd m)).reshape (s ++ [k - 1]) >>= fun mat =>
            (Except.ok ⟨s ++ [k], (NDArray.rows s.prod (k - 1) mat.data).flatMap constrainSimplexRow⟩ :
              Except Err (NDArray Flt)) >>= fun a => .ok (.arr a)) := by
        simp only [pureFold, if_true, Pattern.foldFree, Simplex.foldFree,
          bind, Except.bind, throw, throwThe, MonadExceptOf.throw, pure, Except.pure]
        cases (x.map (rd m)).len with
        | error e => rfl
        | ok n =>
          simp only []
          split_ifs
          · rfl
          · cases (x.map (rd m)).reshape (s ++ [k - 1]) <;> rfl
      rw [e]
      unfold fold
      refine Ref.bind (Ref.lift (f := id) (R := fun b m' g => m' = m ∧ g = b) ?_ fun b _ => ⟨rfl, rfl⟩) ?_
      · rw [len_map]; cases x.len <;> rfl
      rintro n m1 g - ⟨rfl, rfl⟩
      simp only [if_true]
      split_ifs with hn
      · exact Ref.error
      refine Ref.bind Ref.reshape ?_
      rintro b m1 g - ⟨rfl, rfl, hb, hbs⟩
      refine Ref.bind (Ref.allocate rfl) ?_
      rintro a m2 g h2 ⟨rfl, hf, hn⟩
      refine Ref.ret ⟨rfl, ?_⟩
      exact FoldR.of_fresh hf hn (by simp)
    | false =>
      simp only [pureFold, Bool.false_eq_true, if_false, simplex_foldNF_chain]
      unfold fold
      refine Ref.bind (Ref.lift (f := id) (R := fun b m' g => m' = m ∧ g = b) ?_ fun b _ => ⟨rfl, rfl⟩) ?_
      · rw [len_map]; cases x.len <;> rfl
      rintro n m1 g - ⟨rfl, rfl⟩
      simp only [Bool.false_eq_true, if_false]
      split_ifs with hn
      · exact Ref.error
      refine Ref.bind (Ref.lift (reshape_map _ _ _) (R := fun b m' g => m' = m1 ∧ g = b.map (rd m1) ∧ b.data = x.data ∧
        x.data.length = (s ++ [k]).prod) ?_) ?_
      · intro b hb
        simp only [NDArray.reshape] at hb
        split at hb <;> simp at hb
        subst hb
        rename_i h
        exact ⟨rfl, rfl, rfl, h⟩
      rintro r m3 g - ⟨rfl, rfl, hr, hl⟩
      refine Ref.bind Ref.requireValid ?_
      rintro _ m4 _ - rfl
      refine Ref.ret ⟨rfl, ?_⟩
      simp only [leaves, hr]
      refine FoldR.views ?_
      rw [hl]; rfl
  | hpsd n lb dv fd =>
    intro hw x free vv m hx
    cases free with
    | true =>
      have e : pureFold (.psd n lb dv fd) (x.map (rd m)) true vv =
          (checkFlatP "Wrong length for PSDSymmetricMatrix flat value." (x.map (rd m)) (n * (n + 1) / 2) >>= fun x =>
            unpackPosdef lb.toFlt x >>= fun a => .ok (.arr a)) := by
        simp only [pureFold, if_true, Pattern.foldFree, PSD.foldFree, checkFlatP,
          bind, Except.bind, throw, throwThe, MonadExceptOf.throw, pure, Except.pure]
        split_ifs <;> rfl
      rw [e]
      unfold fold
      refine Ref.bind Ref.checkFlat ?_
      rintro b m1 g - ⟨rfl, rfl, hb, hbl⟩
      simp only [if_true]
      refine Ref.bind (Ref.allocate rfl) ?_
      rintro a m2 g h2 ⟨rfl, hf, hn⟩
      refine Ref.ret ⟨rfl, ?_⟩
      exact FoldR.of_fresh hf hn (by simp)
    | false =>
      simp only [pureFold, Bool.false_eq_true, if_false, psd_foldNF_chain]
      unfold fold
      refine Ref.bind Ref.checkFlat ?_
      rintro b m1 g - ⟨rfl, rfl, hb, hbl⟩
      simp only [Bool.false_eq_true, if_false] at hbl ⊢
      refine Ref.bind Ref.reshape ?_
      rintro r m3 g - ⟨rfl, rfl, hr, hs⟩
      refine Ref.bind Ref.requireValid ?_
      rintro _ m4 _ - rfl
      refine Ref.ret ⟨rfl, ?_⟩
      simp only [leaves, hr, hb]
      refine FoldR.views ?_
      rw [← hb, hbl]; rfl
  | harr s base fd ih =>
    intro hw x free vv m hx
    have e : pureFold (.array s base fd) (x.map (rd m)) free vv =
        (checkFlatP "Wrong size." (x.map (rd m)) (s.prod * base.flatLen free) >>= fun x =>
          mapE (fun item => pureFold base (x.slice (NDArray.ravel s item * base.flatLen free) (base.flatLen free)) free vv
            >>= fun v => v.asArr) (NDArray.productRanges s) >>= fun parts =>
          NDArray.stack parts >>= fun st => st.reshape (s ++ base.shape) >>= fun a =>
          if free then .ok (.arr a)
          else Pattern.requireValid ((Pattern.array s base fd).validate (.arr a) vv) >>= fun _ => .ok (.arr a)) := by
      cases free with
      | true =>
        simp only [pureFold, if_true, Pattern.foldFree, checkFlat_eq, Pattern.foldItems]
        cases checkFlatP "Wrong size." (x.map (rd m)) (s.prod * base.flatLen true) with
        | error e => rfl
        | ok x =>
          simp only [bind, Except.bind]
          cases mapE _ (NDArray.productRanges s) with
          | error e => rfl
          | ok ps =>
            simp only []
            cases NDArray.stack ps <;> rfl
      | false =>
        simp only [pureFold, Bool.false_eq_true, if_false, Pattern.foldNF, checkFlat_eq, Pattern.foldItems]
        cases checkFlatP "Wrong size." (x.map (rd m)) (s.prod * base.flatLen false) with
        | error e => rfl
        | ok x =>
          simp only [bind, Except.bind]
          cases mapE _ (NDArray.productRanges s) with
          | error e => rfl
          | ok ps =>
            simp only []
            cases NDArray.stack ps <;> rfl
    rw [e]
    unfold fold
    refine Ref.bind Ref.checkFlat ?_
    rintro b m1 g - ⟨rfl, rfl, hb, hbl⟩
    refine Ref.bind (Ref.mapMM ?_) ?_
    · intro item _ m2 h2
      have hsl : Allocated m1 (b.slice (NDArray.ravel s item * base.flatLen free) (base.flatLen free)).data := by
        intro a ha
        refine hx a (hb ▸ ?_)
        exact List.mem_of_mem_drop (List.mem_of_mem_take ha)
      rw [slice_map, ← arr_rd_prefix h2 hsl]
      refine Ref.bind (ih hw.2.2 _ free vv m2 (Allocated.mono h2 hsl)) ?_
      rintro v m3 g h3 ⟨rfl, hR⟩
      have hal := hR.alloc h3 (Allocated.mono h2 hsl)
      cases v with
      | arr a =>
        exact Ref.lift (f := NDArray.map (rd m3)) rfl (by rintro b ⟨⟩; exact ⟨rfl, hal⟩)
      | dict es => exact Ref.error
    rintro parts m2 g h2 ⟨rfl, hps⟩
    refine Ref.bind (Ref.allocate rfl) ?_
    rintro st m3 g h3 ⟨rfl, hf, hn⟩
    refine Ref.bind (Ref.lift (reshape_map _ _ _) (R := fun b m' g => m' = m3 ∧ g = b.map (rd m3) ∧ b.data = st.data ∧
        st.data.length = (s ++ base.shape).prod) ?_) ?_
    · intro b hb
      simp only [NDArray.reshape] at hb
      split at hb <;> simp at hb
      subst hb
      rename_i h
      exact ⟨rfl, rfl, rfl, h⟩
    rintro r m4 g - ⟨rfl, rfl, hr, hl⟩
    have hR : FoldR (viewMask (.array s base fd)) free x.data m1 (leaves (.arr r)) m4 := by
      simp only [leaves, hr]
      refine FoldR.of_fresh (fun a ha => ⟨h2.length_le.trans (hf a ha).1, (hf a ha).2⟩) hn ?_
      rintro rfl
      have h5 : x.data.length = s.prod * base.flatLen false := by rw [← hb, hbl]
      have h6 : x.data.length = st.data.length := by
        rw [hl, h5, List.prod_append, Pattern.flatLen_false hw.2.1 hw.2.2]
      simp only [viewMask, ← h5]
      exact Shares.copies h6 fun a ha => h2.length_le.trans (hf a ha).1
    cases free with
    | true => simp only [if_true]; exact Ref.ret ⟨rfl, hR⟩
    | false =>
      simp only [Bool.false_eq_true, if_false]
      refine Ref.bind Ref.requireValid ?_
      rintro _ m5 _ - rfl
      exact Ref.ret ⟨rfl, hR⟩
  | hdict es l fd ih =>
    intro hw x free vv m hx
    have e : pureFold (.dict es l fd) (x.map (rd m)) free vv =
        (checkFlatP "Wrong size." (x.map (rd m)) (Pattern.flatLenEs es free) >>= fun x =>
          pureFoldEs es x free vv 0 >>= fun vs =>
          if free then .ok (.dict vs)
          else Pattern.requireValid ((Pattern.dict es l fd).validate (.dict vs) vv) >>= fun _ => .ok (.dict vs)) := by
      cases free with
      | true =>
        simp only [pureFold, pureFoldEs, if_true, Pattern.foldFree, checkFlat_eq]
        rfl
      | false =>
        simp only [pureFold, pureFoldEs, Bool.false_eq_true, if_false, Pattern.foldNF, checkFlat_eq]
        rfl
    rw [e]
    unfold fold
    refine Ref.bind Ref.checkFlat ?_
    rintro b m1 g - ⟨rfl, rfl, hb, hbl⟩
    refine Ref.bind (ih hw.2 b free vv 0 m1 (hb ▸ hx) (by omega)) ?_
    rintro vs m2 g h2 ⟨rfl, hR⟩
    have hR' : FoldR (viewMask (.dict es l fd)) free x.data m1 (leaves (.dict vs)) m2 := by
      simpa only [List.drop_zero, hb, leaves, viewMask] using hR
    cases free with
    | true => simp only [if_true]; exact Ref.ret ⟨by simp [Val.map], hR'⟩
    | false =>
      simp only [Bool.false_eq_true, if_false]
      have e2 : Val.dict (Val.mapEs (rd m2) vs) = (Val.dict vs).map (rd m2) := by simp [Val.map]
      rw [e2]
      refine Ref.bind Ref.requireValid ?_
      rintro _ m5 _ - rfl
      exact Ref.ret ⟨rfl, hR'⟩
  | hnil =>
    intro hw x free vv off m hx hl
    have e : pureFoldEs .nil (x.map (rd m)) free vv off = .ok [] := by
      cases free <;> simp [pureFoldEs, Pattern.foldFreeEs, Pattern.foldNFEs]
    rw [e]
    unfold foldEs
    refine Ref.ret ⟨by simp [Val.mapEs], ?_⟩
    have : x.data.drop off = [] := by
      simp only [Pattern.flatLenEs] at hl
      exact List.drop_eq_nil_of_le (by omega)
    rw [this]
    simp only [leavesEs, viewMaskEs]
    exact ⟨by simp, by simp, fun _ _ => List.nodup_nil, fun _ => .nil⟩
  | hcons k p r ihp ihr =>
    intro hw x free vv off m hx hl
    have e : pureFoldEs (.cons k p r) (x.map (rd m)) free vv off =
        (pureFold p ((x.map (rd m)).slice off (p.flatLen free)) free vv >>= fun v =>
          pureFoldEs r (x.map (rd m)) free vv (off + p.flatLen free) >>= fun vs => .ok ((k, v) :: vs)) := by
      cases free with
      | true => simp only [pureFold, pureFoldEs, if_true, Pattern.foldFreeEs]; rfl
      | false => simp only [pureFold, pureFoldEs, Bool.false_eq_true, if_false, Pattern.foldNFEs]; rfl
    rw [e]
    unfold foldEs
    have hsl : Allocated m (x.slice off (p.flatLen free)).data := by
      intro a ha
      exact hx a (List.mem_of_mem_drop (List.mem_of_mem_take ha))
    rw [slice_map]
    refine Ref.bind (ihp hw.1 _ free vv m hsl) ?_
    rintro v m1 g h1 ⟨rfl, hR1⟩
    rw [← arr_rd_prefix h1 hx]
    simp only [Pattern.flatLenEs] at hl
    refine Ref.bind (ihr hw.2.2 x free vv _ m1 (Allocated.mono h1 hx) (by omega)) ?_
    rintro vs m2 g h2 ⟨rfl, hR2⟩
    have hal := hR1.alloc h1 hsl
    refine Ref.ret ⟨?_, ?_⟩
    · simp only [Val.mapEs, val_rd_prefix h2 hal]
    have hd : x.data.drop off = (x.slice off (p.flatLen free)).data ++ x.data.drop (off + p.flatLen free) := by
      simp only [NDArray.slice, NDArray.vec]
      rw [← List.drop_drop, List.take_append_drop]
    have hl1 := h1.length_le
    have hl2 := h2.length_le
    simp only [leavesEs, viewMaskEs]
    refine ⟨?_, ?_, ?_, ?_⟩
    · intro a ha
      rw [hd]
      rcases List.mem_append.mp ha with h | h
      · rcases hR1.sub a h with h | h
        · exact Or.inl (List.mem_append_left _ h)
        · exact Or.inr ⟨h.1, lt_of_lt_of_le h.2 hl2⟩
      · rcases hR2.sub a h with h | h
        · exact Or.inl (List.mem_append_right _ h)
        · exact Or.inr ⟨hl1.trans h.1, h.2⟩
    · intro hf a ha
      rcases List.mem_append.mp ha with h | h
      · exact hR1.fresh hf a h
      · exact hl1.trans (hR2.fresh hf a h)
    · rw [hd]
      intro hn hlt
      rw [List.nodup_append] at hn ⊢
      have hlt2 : ∀ a ∈ x.data.drop (off + p.flatLen free), a < m.length := fun a ha => hlt a (List.mem_append_right _ ha)
      refine ⟨hR1.nodup hn.1 fun a ha => hlt a (List.mem_append_left _ ha),
        hR2.nodup hn.2.1 fun a ha => lt_of_lt_of_le (hlt2 a ha) hl1, ?_⟩
      rintro a ha b hb rfl
      rcases hR1.sub a ha with h | h
      · rcases hR2.sub a hb with h' | h'
        · exact hn.2.2 a h a h' rfl
        · exact absurd (lt_of_lt_of_le (hsl a h) hl1) (not_lt.mpr h'.1)
      · rcases hR2.sub a hb with h' | h'
        · exact absurd (hlt2 a h') (not_lt.mpr h.1)
        · exact absurd h.2 (not_lt.mpr h'.1)
    · intro hf
      rw [hd]
      exact (hR1.shares hf).append ((hR2.shares hf).mono hl1)

/-! ### flatten -/

/-- Prepending a read-only check. -/
theorem flattenCopy_ref {a : NDArray Addr} {m : Mem} : Ref (flattenCopy a) (.ok (a.map (rd m)).flatten) m (Fresh m) :=
  Ref.allocate rfl

/-- The invariant of a flatten of `p`. -/
def FlattenInv (p : Pattern) : Prop := ∀ (v : Val Addr) (free : Bool) (vv : Option Bool) (m : Mem), Allocated m (leaves v) →
  Ref (flatten p v free vv) (pureFlatten p (v.map (rd m)) free vv) m (Fresh m)

/-- The invariant of the loop over a dictionary. -/
def FlattenInvEs (es : Entries) : Prop := ∀ (vs : List (String × Val Addr)) (free : Bool) (vv : Option Bool) (m : Mem),
  Allocated m (leavesEs vs) →
  Ref (flattenEs es vs free vv) (pureFlattenEs es (Val.mapEs (rd m) vs) free vv) m
    (fun bs m' gs => gs = bs.map (·.map (rd m')) ∧ ∀ b ∈ bs, Allocated m' b.data)

theorem Fresh.mono {m m1 m2 : Mem} (h : m <+: m1) {a g} (hf : Fresh m1 a m2 g) : Fresh m a m2 g :=
  ⟨hf.1, fun x hx => ⟨h.length_le.trans (hf.2.1 x hx).1, (hf.2.1 x hx).2⟩, hf.2.2⟩

theorem asArr_ref {v : Val Addr} {m : Mem} :
    Ref (lift v.asArr) (v.map (rd m)).asArr m (fun a m' g => m' = m ∧ g = a.map (rd m) ∧ v = .arr a) := by
  refine Ref.lift (asArr_map _ _) ?_
  intro a ha
  exact ⟨rfl, rfl, Pattern.asArr_ok.mp ha⟩

theorem flatten_inv (p : Pattern) : FlattenInv p := by
  induction p using Pattern.ind (Q := FlattenInvEs) with
  | hnum c s lb ub dv fd =>
    intro v free vv m hv
    have e : pureFlatten (.numeric c s lb ub dv fd) (v.map (rd m)) free vv =
        ((v.map (rd m)).asArr >>= fun a =>
          Pattern.requireValid ((Pattern.numeric c s lb ub dv fd).validate (.arr a.atleast1d) vv) >>= fun _ =>
          if free then (Except.ok (a.atleast1d.map (unconstrain1 lb.toFlt ub.toFlt)) : Except Err _) >>= fun a => .ok a.flatten
          else .ok a.atleast1d.flatten) := by
      cases free <;>
      · simp only [pureFlatten, if_true, Bool.false_eq_true, if_false, Pattern.flattenFree, Pattern.flattenNF,
          Numeric.flattenFree, Numeric.flattenNF, Pattern.requireValid, Pattern.validate, Val.asArr,
          bind, Except.bind, throw, throwThe, MonadExceptOf.throw, pure, Except.pure]
        cases v.map (rd m) with
        | dict es => rfl
        | arr a => simp only [Val.asArr]; split_ifs <;> rfl
    rw [e]
    unfold flatten
    refine Ref.bind asArr_ref ?_
    rintro a m1 g - ⟨rfl, rfl, rfl⟩
    rw [atleast1d_map]
    refine Ref.bind Ref.requireValid ?_
    rintro _ m2 _ - rfl
    cases free with
    | true =>
      simp only [if_true]
      refine Ref.bind unconstrainArray_ref ?_
      rintro b m3 g h3 ⟨rfl, hf, hn⟩
      exact flattenCopy_ref.mono fun _ _ _ _ h => h.mono h3
    | false =>
      simp only [Bool.false_eq_true, if_false]
      exact flattenCopy_ref
  | hsim k s dv fd =>
    intro v free vv m hv
    have e : pureFlatten (.simplex k s dv fd) (v.map (rd m)) free vv =
        ((v.map (rd m)).asArr >>= fun a =>
          Pattern.requireValid ((Pattern.simplex k s dv fd).validate (.arr a) vv) >>= fun _ =>
          if free then (Except.ok ⟨s ++ [k - 1], (NDArray.rows s.prod k a.data).flatMap unconstrainSimplexRow⟩ :
            Except Err (NDArray Flt)) >>= fun a => .ok a.flatten
          else .ok a.flatten) := by
      cases free <;>
      · simp only [pureFlatten, if_true, Bool.false_eq_true, if_false, Pattern.flattenFree, Pattern.flattenNF,
          Simplex.flattenFree, Simplex.flattenNF, Pattern.requireValid, Pattern.validate, Val.asArr,
          bind, Except.bind, throw, throwThe, MonadExceptOf.throw, pure, Except.pure]
        cases v.map (rd m) with
        | dict es => rfl
        | arr a =>
          simp only [Val.asArr]
          cases Simplex.validate k s dv a vv with
          | error e => rfl
          | ok r => simp only []; split_ifs <;> rfl
    rw [e]
    unfold flatten
    refine Ref.bind asArr_ref ?_
    rintro a m1 g - ⟨rfl, rfl, rfl⟩
    refine Ref.bind Ref.requireValid ?_
    rintro _ m2 _ - rfl
    cases free with
    | true =>
      simp only [if_true]
      refine Ref.bind (Ref.allocate rfl) ?_
      rintro b m3 g h3 ⟨rfl, hf, hn⟩
      exact flattenCopy_ref.mono fun _ _ _ _ h => h.mono h3
    | false =>
      simp only [Bool.false_eq_true, if_false]
      exact flattenCopy_ref
  | hpsd n lb dv fd =>
    intro v free vv m hv
    have e : pureFlatten (.psd n lb dv fd) (v.map (rd m)) free vv =
        ((v.map (rd m)).asArr >>= fun a =>
          Pattern.requireValid ((Pattern.psd n lb dv fd).validate (.arr a) vv) >>= fun _ =>
          if free then packPosdef n lb.toFlt a else .ok a.flatten) := by
      cases free <;>
      · simp only [pureFlatten, if_true, Bool.false_eq_true, if_false, Pattern.flattenFree, Pattern.flattenNF,
          PSD.flattenFree, PSD.flattenNF, Pattern.requireValid, Pattern.validate, Val.asArr,
          bind, Except.bind, throw, throwThe, MonadExceptOf.throw, pure, Except.pure]
        cases v.map (rd m) with
        | dict es => rfl
        | arr a =>
          simp only [Val.asArr]
          cases PSD.validate n lb.toFlt dv a vv with
          | error e => rfl
          | ok r => simp only []; split_ifs <;> rfl
    rw [e]
    unfold flatten
    refine Ref.bind asArr_ref ?_
    rintro a m1 g - ⟨rfl, rfl, rfl⟩
    refine Ref.bind Ref.requireValid ?_
    rintro _ m2 _ - rfl
    cases free with
    | true =>
      simp only [if_true]
      exact Ref.allocate rfl
    | false =>
      simp only [Bool.false_eq_true, if_false]
      exact flattenCopy_ref
  | harr s base fd ih =>
    intro v free vv m hv
    have e : pureFlatten (.array s base fd) (v.map (rd m)) free vv =
        (Pattern.requireValid ((Pattern.array s base fd).validate (v.map (rd m)) vv) >>= fun _ =>
          (v.map (rd m)).asArr >>= fun a =>
          mapE (fun item => a.getItem item >>= fun sub => pureFlatten base (.arr sub) free vv) (NDArray.productRanges s)
            >>= fun parts => NDArray.hstack parts) := by
      cases free with
      | true => simp only [pureFlatten, if_true, Pattern.flattenFree, Pattern.flattenItems]
      | false => simp only [pureFlatten, Bool.false_eq_true, if_false, Pattern.flattenNF, Pattern.flattenItems]
    rw [e]
    unfold flatten
    refine Ref.bind Ref.requireValid ?_
    rintro _ m1 _ - rfl
    refine Ref.bind asArr_ref ?_
    rintro a m2 g - ⟨rfl, rfl, rfl⟩
    refine Ref.bind (Ref.mapMM ?_) ?_
    · intro item _ m3 h3
      rw [← arr_rd_prefix h3 hv]
      refine Ref.bind (Ref.lift (getItem_map _ _ _) (R := fun b m' g => m' = m3 ∧ g = b.map (rd m3) ∧
        Allocated m3 b.data) ?_) ?_
      · intro b hb
        refine ⟨rfl, rfl, ?_⟩
        simp only [NDArray.getItem] at hb
        split at hb <;> simp at hb
        subst hb
        intro x hx
        exact Allocated.mono h3 hv x (List.mem_of_mem_drop (List.mem_of_mem_take hx))
      rintro b m4 g - ⟨rfl, rfl, hb⟩
      exact (ih (.arr b) free vv m4 hb).mono fun _ _ _ _ h => ⟨h.1, fun x hx => (h.2.1 x hx).2⟩
    rintro parts m3 g h3 ⟨rfl, hps⟩
    exact (Ref.allocate rfl).mono fun _ _ _ _ h => h.mono h3
  | hdict es l fd ih =>
    intro v free vv m hv
    have e : pureFlatten (.dict es l fd) (v.map (rd m)) free vv =
        (Pattern.requireValid ((Pattern.dict es l fd).validate (v.map (rd m)) vv) >>= fun _ =>
          (v.map (rd m)).asDict >>= fun vs => pureFlattenEs es vs free vv >>= fun parts => NDArray.hstack parts) := by
      cases free with
      | true => simp only [pureFlatten, pureFlattenEs, if_true, Pattern.flattenFree]
      | false => simp only [pureFlatten, pureFlattenEs, Bool.false_eq_true, if_false, Pattern.flattenNF]
    rw [e]
    unfold flatten
    refine Ref.bind Ref.requireValid ?_
    rintro _ m1 _ - rfl
    refine Ref.bind (Ref.lift (asDict_map _ _) (R := fun b m' g => m' = m1 ∧ g = Val.mapEs (rd m1) b ∧ v = .dict b) ?_) ?_
    · intro b hb
      refine ⟨rfl, rfl, ?_⟩
      cases v <;> simp [Val.asDict] at hb
      subst hb; rfl
    rintro vs m2 g - ⟨rfl, rfl, rfl⟩
    refine Ref.bind (ih vs free vv m2 hv) ?_
    rintro parts m3 g h3 ⟨rfl, hps⟩
    exact (Ref.allocate rfl).mono fun _ _ _ _ h => h.mono h3
  | hnil =>
    intro vs free vv m hv
    have e : pureFlattenEs .nil (Val.mapEs (rd m) vs) free vv = .ok [] := by
      cases free <;> simp [pureFlattenEs, Pattern.flattenFreeEs, Pattern.flattenNFEs]
    rw [e]
    unfold flattenEs
    exact Ref.ret ⟨rfl, by simp⟩
  | hcons k p r ihp ihr =>
    intro vs free vv m hv
    have e : pureFlattenEs (.cons k p r) (Val.mapEs (rd m) vs) free vv =
        (match (Val.mapEs (rd m) vs).lookup k with
        | none => .error (.keyError k)
        | some v => pureFlatten p v free vv >>= fun x => pureFlattenEs r (Val.mapEs (rd m) vs) free vv >>= fun xs =>
          .ok (x :: xs)) := by
      cases free with
      | true => simp only [pureFlatten, pureFlattenEs, if_true, Pattern.flattenFreeEs]; cases List.lookup k _ <;> rfl
      | false => simp only [pureFlatten, pureFlattenEs, Bool.false_eq_true, if_false, Pattern.flattenNFEs]; cases List.lookup k _ <;> rfl
    rw [e, lookup_mapEs]
    unfold flattenEs
    cases hk : vs.lookup k with
    | none => exact Ref.error
    | some v =>
      simp only [Option.map]
      have hal : Allocated m (leaves v) := fun a ha => hv a (leaves_lookup hk a ha)
      refine Ref.bind (ihp v free vv m hal) ?_
      rintro x m1 g h1 hx
      rw [← mapEs_congr vs (f := rd m1) (g := rd m) fun a ha => rd_prefix h1 (hv a ha)]
      refine Ref.bind (ihr vs free vv m1 (Allocated.mono h1 hv)) ?_
      rintro xs m2 g' h2 ⟨rfl, hxs⟩
      have hxal : Allocated m1 x.data := fun a ha => (hx.2.1 a ha).2
      refine Ref.ret ⟨?_, ?_⟩
      · rw [hx.1, List.map_cons, arr_rd_prefix h2 hxal]
      · intro b hb
        rcases List.mem_cons.mp hb with rfl | hb
        · exact Allocated.mono h2 hxal
        · exact hxs b hb

/-! ### Writes -/

theorem write_length (m : Mem) (ws : List (Addr × Flt)) : (write m ws).length = m.length := by
  induction ws generalizing m with
  | nil => rfl
  | cons w ws ih => simp only [write, List.foldl_cons] at ih ⊢; rw [ih]; simp

theorem rd_write_other {m : Mem} {ws : List (Addr × Flt)} {a : Addr} (h : ∀ w ∈ ws, w.1 ≠ a) :
    rd (write m ws) a = rd m a := by
  induction ws generalizing m with
  | nil => rfl
  | cons w ws ih =>
    simp only [write, List.foldl_cons] at ih ⊢
    rw [ih fun w' hw' => h w' (by simp [hw'])]
    simp [rd, List.getD_eq_getElem?_getD, List.getElem?_set_ne (h w (by simp))]

theorem rd_write_one {m : Mem} {a : Addr} (h : a < m.length) (y : Flt) : rd (write m [(a, y)]) a = y := by
  simp [rd, write, List.getD_eq_getElem?_getD, h]

theorem Shares.get {n bs xs rs} (h : Shares n bs xs rs) :
    bs.length = xs.length ∧ xs.length = rs.length ∧
      ∀ i (hi : i < bs.length) (hx : i < xs.length) (hr : i < rs.length),
        if bs[i] then rs[i] = xs[i] else n ≤ rs[i] := by
  induction h with
  | nil => simp
  | view a h ih =>
    refine ⟨by simp [ih.1], by simp [ih.2.1], ?_⟩
    intro i hi hx hr
    cases i with
    | zero => simp
    | succ i => simpa using ih.2.2 i (by simpa using hi) (by simpa using hx) (by simpa using hr)
  | copy a b hb h ih =>
    refine ⟨by simp [ih.1], by simp [ih.2.1], ?_⟩
    intro i hi hx hr
    cases i with
    | zero => simpa using hb
    | succ i => simpa using ih.2.2 i (by simpa using hi) (by simpa using hx) (by simpa using hr)

theorem Ref.ok {β γ : Type} {c : MM β} {q : Except Err γ} {m : Mem} {R : β → Mem → γ → Prop} (h : Ref c q m R) {b m'}
    (hc : c m = .ok (b, m')) : m <+: m' ∧ ∃ g, q = .ok g ∧ R b m' g := by
  unfold Ref at h; rw [hc] at h; exact h

theorem Ref.err {β γ : Type} {c : MM β} {q : Except Err γ} {m : Mem} {R : β → Mem → γ → Prop} (h : Ref c q m R) {e} :
    c m = .error e ↔ q = .error e := by
  unfold Ref at h
  cases hc : c m with
  | error e' => rw [hc] at h; simp only at h; rw [h]; simp
  | ok bm =>
    rw [hc] at h; obtain ⟨_, g, hq, _⟩ := h
    rw [hq]; simp

theorem userFold_ref {p : Pattern} (hw : p.WF) {x : NDArray Addr} {free vv : Option Bool} {m : Mem}
    (hx : Allocated m x.data) :
    Ref (userFold p x free vv) (p.fold (x.map (rd m)) free vv) m
      (fun r m' g => g = r.map (rd m') ∧ ∃ f, Pattern.freeWithDefault p.freeDefault free = .ok f ∧
        FoldR (viewMask p) f x.data m (leaves r) m') := by
  have e : p.fold (x.map (rd m)) free vv =
      (Pattern.freeWithDefault p.freeDefault free >>= fun f => pureFold p (x.map (rd m)) f vv) := rfl
  rw [e]
  unfold userFold
  refine Ref.bind (Ref.lift (f := id) (R := fun b m' g => m' = m ∧ g = b ∧
    Pattern.freeWithDefault p.freeDefault free = .ok b) ?_ fun b hb => ⟨rfl, rfl, hb⟩) ?_
  · cases Pattern.freeWithDefault p.freeDefault free <;> rfl
  rintro f m1 g - ⟨rfl, rfl, hf⟩
  exact (fold_inv p hw x g vv m1 hx).mono fun _ _ _ _ h => ⟨h.1, g, hf, h.2⟩

theorem userFlatten_ref {p : Pattern} {v : Val Addr} {free vv : Option Bool} {m : Mem} (hv : Allocated m (leaves v)) :
    Ref (userFlatten p v free vv) (p.flatten (v.map (rd m)) free vv) m (Fresh m) := by
  have e : p.flatten (v.map (rd m)) free vv =
      (Pattern.freeWithDefault p.freeDefault free >>= fun f => pureFlatten p (v.map (rd m)) f vv) := rfl
  rw [e]
  unfold userFlatten
  refine Ref.bind (Ref.lift (f := id) (R := fun b m' g => m' = m ∧ g = b) ?_ fun b hb => ⟨rfl, rfl⟩) ?_
  · cases Pattern.freeWithDefault p.freeDefault free <;> rfl
  rintro f m1 g - ⟨rfl, rfl⟩
  exact flatten_inv p v g vv m1 hv

end Memory
end Paragami
