import Verif.Proofs.User
import Verif.Props.RoundTrip
import Verif.Spec.Layout

/-! # C21–C23, C28: layout of containers, resolution of `free` -/

set_option linter.unusedSimpArgs false

namespace Paragami
open Pattern NDArray

/-! ### C21: dictionaries -/

/-- The loop of `PatternDict.fold`, for a fixed way `f` of folding a member and of measuring it. -/
def foldLoop (f : Pattern → NDArray Flt → Except Err (Val Flt)) (len : Pattern → Nat) :
    Entries → NDArray Flt → Nat → Except Err (List (String × Val Flt))
  | .nil, _, _ => .ok []
  | .cons k p r, x, off => do
    let v ← f p (x.slice off (len p))
    let vs ← foldLoop f len r x (off + len p)
    return (k, v) :: vs

theorem foldNFEs_eq_loop (vv) : ∀ (es : Entries) (x : NDArray Flt) (off : Nat),
    foldNFEs es x vv off = foldLoop (fun p y => p.foldNF y vv) (fun p => p.flatLen false) es x off
  | .nil, _, _ => by rw [foldNFEs_nil]; rfl
  | .cons k p r, x, off => by rw [foldNFEs, foldLoop, ]; simp only [foldNFEs_eq_loop vv r]

theorem foldFreeEs_eq_loop : ∀ (es : Entries) (x : NDArray Flt) (off : Nat),
    foldFreeEs es x off = foldLoop (fun p y => p.foldFree y) (fun p => p.flatLen true) es x off
  | .nil, _, _ => by rw [foldFreeEs]; rfl
  | .cons k p r, x, off => by rw [foldFreeEs, foldLoop]; simp only [foldFreeEs_eq_loop r]

theorem foldLoop_slices {f len} : ∀ {es : Entries} {x : NDArray Flt} {off : Nat} {vs}, es.keys.Nodup →
    foldLoop f len es x off = .ok vs →
    vs.map (·.1) = es.keys ∧ ∀ pre k q post, es.toList = pre ++ (k, q) :: post →
      ∃ w, vs.lookup k = some w ∧ f q (x.slice (off + (pre.map fun kp => len kp.2).sum) (len q)) = .ok w
  | .nil, x, off, vs, _, h => by
    simp only [foldLoop, Except.ok.injEq] at h; subst h
    refine ⟨rfl, fun pre k q post h => ?_⟩
    simp [Entries.toList] at h
  | .cons k0 p0 r, x, off, vs, hnd, h => by
    rw [foldLoop] at h
    replace h := bind_ok h; obtain ⟨v, h1, h⟩ := h
    replace h := bind_ok h; obtain ⟨vs', h2, h⟩ := h
    cases h
    obtain ⟨hk, hnd'⟩ := nodup_keys_cons hnd
    obtain ⟨ih1, ih2⟩ := foldLoop_slices hnd' h2
    refine ⟨by simp only [List.map_cons, ih1]; rfl, fun pre k q post he => ?_⟩
    rw [Entries.toList] at he
    cases pre with
    | nil =>
      simp only [List.nil_append, List.cons.injEq, Prod.mk.injEq] at he
      obtain ⟨⟨rfl, rfl⟩, _⟩ := he
      exact ⟨v, by simp [List.lookup], by simpa using h1⟩
    | cons kp pre =>
      simp only [List.cons_append, List.cons.injEq] at he
      obtain ⟨rfl, he⟩ := he
      obtain ⟨w, h3, h4⟩ := ih2 pre k q post he
      have hmem : k ∈ r.keys := by
        rw [Entries.keys, he]; simp
      have hne : k ≠ k0 := fun h => hk (h ▸ hmem)
      refine ⟨w, by rw [lookup_cons_ne hne]; exact h3, ?_⟩
      rw [← h4, List.map_cons, List.sum_cons, Nat.add_assoc]

/-- **C21, folding.**  Folding a vector with a dictionary pattern (either value of `free`) returns a dictionary with the
pattern's keys in the pattern's order, and under each key exactly the fold of that key's contiguous slice, which starts
where the slices of the earlier keys end. -/
theorem C21_dict_fold_slices {es l fd} (hp : Built (.dict es l fd)) {x : List Flt} {free : Bool} {vv v}
    (h : (Pattern.dict es l fd).fold (vec x) (some free) vv = .ok v) :
    ∃ vs, v = .dict vs ∧ vs.map (·.1) = es.keys ∧ ∀ pre k q post, es.toList = pre ++ (k, q) :: post →
      ∃ w, vs.lookup k = some w ∧
        q.fold (vec ((x.drop (pre.map fun kp => kp.2.flatLen free).sum).take (q.flatLen free))) (some free) vv = .ok w := by
  have hw := hp.wf
  simp only [Pattern.WF] at hw
  cases free with
  | true =>
    rw [fold_true, foldFree_dict_unfold] at h
    replace h := bind_ok h; obtain ⟨y, h1, h⟩ := h
    replace h := bind_ok h; obtain ⟨vs, h2, h⟩ := h
    cases h
    obtain ⟨rfl, _, _⟩ := checkFlat_ok h1
    rw [foldFreeEs_eq_loop] at h2
    obtain ⟨h3, h4⟩ := foldLoop_slices hw.1 h2
    refine ⟨vs, rfl, h3, fun pre k q post he => ?_⟩
    obtain ⟨w, h5, h6⟩ := h4 pre k q post he
    exact ⟨w, h5, by rw [fold_true]; simpa [slice] using h6⟩
  | false =>
    rw [fold_false, foldNF_dict_unfold] at h
    replace h := bind_ok h; obtain ⟨y, h1, h⟩ := h
    replace h := bind_ok h; obtain ⟨vs, h2, h⟩ := h
    replace h := bind_ok h; obtain ⟨_, _, h⟩ := h
    cases h
    obtain ⟨rfl, _, _⟩ := checkFlat_ok h1
    rw [foldNFEs_eq_loop] at h2
    obtain ⟨h3, h4⟩ := foldLoop_slices hw.1 h2
    refine ⟨vs, rfl, h3, fun pre k q post he => ?_⟩
    obtain ⟨w, h5, h6⟩ := h4 pre k q post he
    exact ⟨w, h5, by rw [fold_false]; simpa [slice] using h6⟩

/-- **C21, independence.**  If two vectors agree on the slice of one member, that member's folded values agree, whatever
the other coordinates are. -/
theorem C21_members_independent {es l fd} (hp : Built (.dict es l fd)) {x x' : List Flt} {free : Bool} {vv vs vs'}
    (h : (Pattern.dict es l fd).fold (vec x) (some free) vv = .ok (.dict vs))
    (h' : (Pattern.dict es l fd).fold (vec x') (some free) vv = .ok (.dict vs'))
    {pre k q post} (he : es.toList = pre ++ (k, q) :: post)
    (hx : (x.drop (pre.map fun kp => kp.2.flatLen free).sum).take (q.flatLen free) =
      (x'.drop (pre.map fun kp => kp.2.flatLen free).sum).take (q.flatLen free)) :
    ∃ w, vs.lookup k = some w ∧ vs'.lookup k = some w := by
  obtain ⟨_, e1, _, h1⟩ := C21_dict_fold_slices hp h
  obtain ⟨_, e2, _, h2⟩ := C21_dict_fold_slices hp h'
  cases e1; cases e2
  obtain ⟨w, h3, h4⟩ := h1 pre k q post he
  obtain ⟨w', h5, h6⟩ := h2 pre k q post he
  rw [hx, h6] at h4
  cases h4
  exact ⟨w, h3, h5⟩

/-- The loop of `PatternDict.flatten` for a fixed way of flattening a member. -/
theorem flattenNFEs_forall₂ (vv) : ∀ {es : Entries} {vs : List (String × Val Flt)} {parts : List (NDArray Flt)},
    flattenNFEs es vs vv = .ok parts ↔
      List.Forall₂ (fun kp y => ∃ w, vs.lookup kp.1 = some w ∧ kp.2.flattenNF w vv = .ok y) es.toList parts
  | .nil, vs, parts => by rw [flattenNFEs]; simp [Entries.toList, eq_comm]
  | .cons k p r, vs, parts => by
    rw [flattenNFEs, Entries.toList, List.forall₂_cons_left_iff]
    cases hl : vs.lookup k with
    | none => simp [hl]
    | some v =>
      simp only [hl]
      constructor
      · intro h
        replace h := bind_ok h; obtain ⟨y, h1, h⟩ := h
        replace h := bind_ok h; obtain ⟨ys, h2, h⟩ := h
        cases h
        exact ⟨y, ys, ⟨v, rfl, h1⟩, (flattenNFEs_forall₂ vv).mp h2, rfl⟩
      · rintro ⟨y, ys, ⟨w, hw, h1⟩, h2, rfl⟩
        cases hw
        rw [h1, (flattenNFEs_forall₂ vv).mpr h2]; rfl

theorem flattenFreeEs_forall₂ (vv) : ∀ {es : Entries} {vs : List (String × Val Flt)} {parts : List (NDArray Flt)},
    flattenFreeEs es vs vv = .ok parts ↔
      List.Forall₂ (fun kp y => ∃ w, vs.lookup kp.1 = some w ∧ kp.2.flattenFree w vv = .ok y) es.toList parts
  | .nil, vs, parts => by rw [flattenFreeEs]; simp [Entries.toList, eq_comm]
  | .cons k p r, vs, parts => by
    rw [flattenFreeEs, Entries.toList, List.forall₂_cons_left_iff]
    cases hl : vs.lookup k with
    | none => simp [hl]
    | some v =>
      simp only [hl]
      constructor
      · intro h
        replace h := bind_ok h; obtain ⟨y, h1, h⟩ := h
        replace h := bind_ok h; obtain ⟨ys, h2, h⟩ := h
        cases h
        exact ⟨y, ys, ⟨v, rfl, h1⟩, (flattenFreeEs_forall₂ vv).mp h2, rfl⟩
      · rintro ⟨y, ys, ⟨w, hw, h1⟩, h2, rfl⟩
        cases hw
        rw [h1, (flattenFreeEs_forall₂ vv).mpr h2]; rfl

theorem hstack_ok {parts : List (NDArray Flt)} {x : NDArray Flt} :
    hstack parts = .ok x ↔ parts ≠ [] ∧ x = vec (parts.flatMap (·.data)) := by
  cases parts <;> simp [hstack, eq_comm]

/-- A member that flattens is accepted by validation under the same setting. -/
theorem acc_of_flatten {p : Pattern} (hw : p.WF) {v : Val Flt} (hv : v.WF) {free : Bool} {vv x}
    (h : p.flatten v (some free) vv = .ok x) : Acc p v vv := by
  cases free with
  | true => rw [flatten_true] at h; exact (flattenFree_ok_len p hw v vv x hv h).1
  | false => rw [flatten_false] at h; exact (flattenNF_ok_imp p hw v vv x hv h).1

theorem accEs_of_parts {vv} {free : Bool} : ∀ {es : Entries} {vs : List (String × Val Flt)} {parts : List (NDArray Flt)},
    WFEs es → Val.WFEs vs →
    List.Forall₂ (fun kp y => ∃ w, vs.lookup kp.1 = some w ∧ kp.2.flatten w (some free) vv = .ok y) es.toList parts →
    AccEs es vs vv
  | .nil, _, _, _, _, _ => by simp [AccEs]
  | .cons k p r, vs, parts, hw, hv, h => by
    simp only [WFEs] at hw
    rw [Entries.toList, List.forall₂_cons_left_iff] at h
    obtain ⟨y, ys, ⟨w, h1, h2⟩, h3, rfl⟩ := h
    simp only [AccEs]
    exact ⟨⟨w, h1, acc_of_flatten hw.1 (WFEs_lookup hv h1) h2⟩, accEs_of_parts hw.2.2 hv h3⟩

/-- **C21, flattening.**  Flattening with a (non-empty) dictionary pattern succeeds exactly when every member flattens,
and the result is the concatenation of the members' flat vectors in the order of the keys. -/
theorem C21_dict_flatten_concat {es l fd} (hp : Built (.dict es l fd)) {vs : List (String × Val Flt)}
    (hv : Val.WFEs vs) {free : Bool} {vv x} :
    (Pattern.dict es l fd).flatten (.dict vs) (some free) vv = .ok x ↔
      es ≠ .nil ∧ ∃ parts : List (NDArray Flt),
        List.Forall₂ (fun kp y => ∃ w, vs.lookup kp.1 = some w ∧ kp.2.flatten w (some free) vv = .ok y) es.toList parts ∧
        x = vec (parts.flatMap (·.data)) := by
  have hw := hp.wf
  simp only [Pattern.WF] at hw
  have hnil : ∀ {R} {parts : List (NDArray Flt)}, List.Forall₂ R es.toList parts → (parts ≠ [] ↔ es ≠ .nil) := by
    intro R parts h
    cases es with
    | nil => simp [Entries.toList] at h; simp [h]
    | cons k p r =>
      rw [Entries.toList, List.forall₂_cons_left_iff] at h
      obtain ⟨y, ys, _, _, rfl⟩ := h
      simp
  cases free with
  | true =>
    rw [flatten_true, flattenFree_dict_unfold]
    constructor
    · intro h
      replace h := bind_ok h; obtain ⟨_, _, h⟩ := h
      replace h := bind_ok h; obtain ⟨_, h1, h⟩ := h
      cases h1
      replace h := bind_ok h; obtain ⟨parts, h2, h⟩ := h
      rw [flattenFreeEs_forall₂] at h2
      rw [hstack_ok] at h
      exact ⟨(hnil h2).mp h.1, parts, h2, h.2⟩
    · rintro ⟨hne, parts, h2, rfl⟩
      have hacc : Acc (.dict es l fd) (.dict vs) vv := by
        rw [acc_dict]; exact ⟨vs, rfl, accEs_of_parts (free := true) hw.2 hv h2⟩
      rw [requireValid_ok_iff.mpr hacc]
      simp only [bind, Except.bind, Val.asDict]
      rw [(flattenFreeEs_forall₂ vv).mpr h2]
      exact hstack_ok.mpr ⟨(hnil h2).mpr hne, rfl⟩
  | false =>
    rw [flatten_false, flattenNF_dict_unfold]
    constructor
    · intro h
      replace h := bind_ok h; obtain ⟨_, _, h⟩ := h
      replace h := bind_ok h; obtain ⟨_, h1, h⟩ := h
      cases h1
      replace h := bind_ok h; obtain ⟨parts, h2, h⟩ := h
      rw [flattenNFEs_forall₂] at h2
      rw [hstack_ok] at h
      exact ⟨(hnil h2).mp h.1, parts, h2, h.2⟩
    · rintro ⟨hne, parts, h2, rfl⟩
      have hacc : Acc (.dict es l fd) (.dict vs) vv := by
        rw [acc_dict]; exact ⟨vs, rfl, accEs_of_parts (free := false) hw.2 hv h2⟩
      rw [requireValid_ok_iff.mpr hacc]
      simp only [bind, Except.bind, Val.asDict]
      rw [(flattenNFEs_forall₂ vv).mpr h2]
      exact hstack_ok.mpr ⟨(hnil h2).mpr hne, rfl⟩

/-- C21 is not vacuous: the nested example folds and flattens. -/
example : ∃ (v : Val Flt) (x y : NDArray Flt), v.WF ∧ exPat.flatten v (some false) none = .ok x ∧
    exPat.flatten v (some true) none = .ok y := by
  obtain ⟨v, x, y, h1, _, h2, h3⟩ := exPat_value; exact ⟨v, x, y, h1, h2, h3⟩

/-! ### C22: arrays -/

theorem ravel_eq_foldl (s idx : List Nat) (h : Spec.MultiIndex s idx) (acc : Nat) :
    (s.zip idx).foldl (fun acc ni => acc * ni.1 + ni.2) acc = acc * s.prod + ravel s idx := by
  induction h generalizing acc with
  | nil => simp [ravel]
  | cons _ _ ih =>
    simp only [List.zip_cons_cons, List.foldl_cons, List.prod_cons, ravel, ih]
    ring

theorem rank_eq_ravel {s idx : List Nat} (h : Spec.MultiIndex s idx) : Spec.rank s idx = ravel s idx := by
  rw [Spec.rank, ravel_eq_foldl s idx h]; simp

theorem multiIndex_mem {s idx : List Nat} (h : Spec.MultiIndex s idx) : idx ∈ productRanges s := by
  induction h with
  | nil => simp [productRanges]
  | cons h1 _ ih =>
    simp only [productRanges, List.mem_flatMap, List.mem_range, List.mem_map]
    exact ⟨_, h1, _, ih, rfl⟩

theorem ravel_lt {s idx : List Nat} (h : Spec.MultiIndex s idx) : ravel s idx < s.prod := by
  have : ravel s idx ∈ (productRanges s).map (ravel s) := List.mem_map_of_mem (multiIndex_mem h)
  rw [map_ravel_productRanges] at this
  exact List.mem_range.mp this

theorem foldItems_items {f : NDArray Flt → Except Err (Val Flt)} {x a : NDArray Flt} {s bshape : List Nat} {len : Nat}
    (hf : ∀ y b, f y = .ok (.arr b) → b.shape = bshape ∧ b.data.length = bshape.prod)
    (h : foldItems f x s (s ++ bshape) len = .ok a) :
    a.shape = s ++ bshape ∧ a.WF ∧
      ∀ i < s.prod, f (vec (chunk len x.data i)) = .ok (.arr ⟨bshape, chunk bshape.prod a.data i⟩) := by
  have h1 := foldItems_ok h
  have hB : ∀ i, ∃ b : NDArray Flt, i < s.prod → f (vec (chunk len x.data i)) = .ok (.arr b) := by
    intro i
    by_cases hi : i < s.prod
    · obtain ⟨b, hb⟩ := h1 i hi; exact ⟨b, fun _ => hb⟩
    · exact ⟨⟨[], []⟩, fun h => absurd h hi⟩
  choose g hg using hB
  have hsh : ∀ i < s.prod, g i = ⟨bshape, (g i).data⟩ := by
    intro i hi
    have := (hf _ _ (hg i hi)).1
    cases hgi : g i with | mk sh d => rw [hgi] at this; simp at this; rw [this]
  have hlen : ∀ i < s.prod, (g i).data.length = bshape.prod := fun i hi => (hf _ _ (hg i hi)).2
  have h2 := foldItems_eq (f := f) (x := x) (s := s) (bshape := bshape) (len := len) (g := fun i => (g i).data)
    (fun i hi => by rw [hg i hi, ← hsh i hi]) hlen
  rw [h2] at h
  cases h
  refine ⟨rfl, ?_, fun i hi => ?_⟩
  · simp only [NDArray.WF]
    rw [length_flatMap_range _ hlen, List.prod_append]
  · rw [chunk_of_flatMap (fun i => (g i).data) hlen hi, hg i hi, ← hsh i hi]

/-- Every array-valued fold has the pattern's shape. -/
theorem fold_shape {p : Pattern} (hw : p.WF) (hd : p.isDict = false) {x : NDArray Flt} {free : Bool} {vv} {v : Val Flt}
    (h : p.fold x (some free) vv = .ok v) : ∃ b : NDArray Flt, v = .arr b ∧ b.shape = p.shape ∧ b.data.length = p.shape.prod := by
  cases free with
  | false =>
    rw [fold_false] at h
    obtain ⟨h1, h2, _⟩ := foldNF_ok_imp p hw x vv v h
    rw [unflat_of_not_dict hd] at h2
    exact ⟨_, h2, rfl, by rw [h1, flatLen_false hd hw]⟩
  | true =>
    rw [fold_true] at h
    cases p with
    | numeric c s lb ub dv fd =>
      simp only [foldFree] at h
      replace h := bind_ok h; obtain ⟨a, h1, h⟩ := h
      cases h
      rw [Numeric.foldFree_ok] at h1
      obtain ⟨_, h2, rfl⟩ := h1
      exact ⟨_, rfl, rfl, by simp [Pattern.shape, h2]⟩
    | simplex k s dv fd =>
      simp only [foldFree] at h
      replace h := bind_ok h; obtain ⟨a, h1, h⟩ := h
      cases h
      rw [Simplex.foldFree_ok] at h1
      obtain ⟨_, h2, rfl⟩ := h1
      refine ⟨_, rfl, rfl, ?_⟩
      simp only [Pattern.shape, List.prod_append, List.prod_cons, List.prod_nil, mul_one]
      apply length_flatMap_range
      intro i hi
      have hk : 2 ≤ k := hw
      have : (chunk (k - 1) x.data i).length = k - 1 :=
        length_chunk (by rw [h2, List.prod_append]; simp) hi
      simp [constrainSimplexRow, this]; omega
    | psd n lb dv fd =>
      simp only [foldFree] at h
      replace h := bind_ok h; obtain ⟨a, h1, h⟩ := h
      cases h
      rw [PSD.foldFree_ok] at h1
      obtain ⟨h2, h3, h4⟩ := h1
      have hm : matSize x.atleast1d.size = n := by
        have : x.atleast1d.size = tri n := by simp only [NDArray.size, atleast1d_data]; exact h3
        rw [this, matSize_tri]
      unfold unpackPosdef at h4
      replace h4 := bind_ok h4; obtain ⟨ld, _, h4⟩ := h4
      simp only [hm, pure, Except.pure, Except.ok.injEq] at h4
      subst h4
      exact ⟨_, rfl, rfl, by rw [length_ofFn2]; simp [Pattern.shape]⟩
    | array s base fd =>
      rw [foldFree_array_unfold] at h
      replace h := bind_ok h; obtain ⟨y, _, h⟩ := h
      replace h := bind_ok h; obtain ⟨a, h1, h⟩ := h
      cases h
      unfold foldItems at h1
      replace h1 := bind_ok h1; obtain ⟨parts, _, h1⟩ := h1
      replace h1 := bind_ok h1; obtain ⟨st, _, h1⟩ := h1
      rw [reshape_ok] at h1
      obtain ⟨h2, rfl⟩ := h1
      exact ⟨_, rfl, rfl, h2⟩
    | dict es l fd => simp [isDict] at hd

/-- **C22, folding.**  In a `PatternArray` of any shape the element at a multi-index is the base pattern's fold of the
contiguous block of the vector that starts at the row-major rank of the multi-index times the base's flat length. -/
theorem C22_array_fold_blocks {s base fd} (hp : Built (.array s base fd)) {x : List Flt} {free : Bool} {vv v}
    (h : (Pattern.array s base fd).fold (vec x) (some free) vv = .ok v) :
    ∃ a : NDArray Flt, v = .arr a ∧ a.shape = s ++ base.shape ∧ ∀ idx, Spec.MultiIndex s idx →
      ∃ b, a.getItem idx = .ok b ∧
        base.fold (vec ((x.drop (Spec.rank s idx * base.flatLen free)).take (base.flatLen free))) (some free) vv =
          .ok (.arr b) := by
  have hw := hp.wf
  simp only [Pattern.WF] at hw
  have key : ∀ (f : NDArray Flt → Except Err (Val Flt)) (a : NDArray Flt) (len : Nat),
      (∀ y, f y = base.fold y (some free) vv) → foldItems f (vec x) s (s ++ base.shape) len = .ok a →
      a.shape = s ++ base.shape ∧ ∀ idx, Spec.MultiIndex s idx → ∃ b, a.getItem idx = .ok b ∧
        base.fold (vec ((x.drop (Spec.rank s idx * len)).take len)) (some free) vv = .ok (.arr b) := by
    intro f a len hf h
    obtain ⟨h1, _, h2⟩ := foldItems_items (fun y b hb => by
      rw [hf] at hb
      obtain ⟨b', e, h3⟩ := fold_shape hw.2.2 hw.2.1 hb
      cases e; exact h3) h
    refine ⟨h1, fun idx hidx => ⟨_, getItem_eq h1 (multiIndex_mem hidx), ?_⟩⟩
    rw [rank_eq_ravel hidx, ← h2 _ (ravel_lt hidx), hf]; rfl
  cases free with
  | true =>
    rw [fold_true, foldFree_array_unfold] at h
    replace h := bind_ok h; obtain ⟨y, h1, h⟩ := h
    replace h := bind_ok h; obtain ⟨a, h2, h⟩ := h
    cases h
    obtain ⟨rfl, _, _⟩ := checkFlat_ok h1
    obtain ⟨h3, h4⟩ := key (fun sub => base.foldFree sub) a _ (fun y => rfl) h2
    exact ⟨a, rfl, h3, h4⟩
  | false =>
    rw [fold_false, foldNF_array_unfold] at h
    replace h := bind_ok h; obtain ⟨y, h1, h⟩ := h
    replace h := bind_ok h; obtain ⟨a, h2, h⟩ := h
    replace h := bind_ok h; obtain ⟨_, _, h⟩ := h
    cases h
    obtain ⟨rfl, _, _⟩ := checkFlat_ok h1
    obtain ⟨h3, h4⟩ := key (fun sub => base.foldNF sub vv) a _ (fun y => rfl) h2
    exact ⟨a, rfl, h3, h4⟩

theorem flattenItems_items {f : Val Flt → Except Err (NDArray Flt)} {a x : NDArray Flt} {s bshape : List Nat} {len : Nat}
    (ha : a.shape = s ++ bshape)
    (hf : ∀ i < s.prod, ∀ y, f (.arr ⟨bshape, chunk bshape.prod a.data i⟩) = .ok y → y = vec y.data ∧ y.data.length = len)
    (h : flattenItems f a s = .ok x) :
    ∀ i < s.prod, f (.arr ⟨bshape, chunk bshape.prod a.data i⟩) = .ok (vec (chunk len x.data i)) := by
  obtain ⟨hpos, h1⟩ := flattenItems_ok ha h
  have hB : ∀ i, ∃ y : NDArray Flt, i < s.prod → f (.arr ⟨bshape, chunk bshape.prod a.data i⟩) = .ok y := by
    intro i
    by_cases hi : i < s.prod
    · obtain ⟨b, hb⟩ := h1 i hi; exact ⟨b, fun _ => hb⟩
    · exact ⟨⟨[], []⟩, fun h => absurd h hi⟩
  choose g hg using hB
  have hlen : ∀ i < s.prod, (g i).data.length = len := fun i hi => (hf i hi _ (hg i hi)).2
  have h2 := flattenItems_eq ha (f := f) (g := fun i => (g i).data)
    (fun i hi => by rw [hg i hi]; congr 1; exact (hf i hi _ (hg i hi)).1) hpos
  rw [h2] at h
  cases h
  intro i hi
  rw [hg i hi, vec_data, chunk_of_flatMap (fun i => (g i).data) hlen hi]
  congr 1
  exact (hf i hi _ (hg i hi)).1

/-- **C22, flattening.**  Flattening puts the base pattern's flat vector of the element at a multi-index into the block
that starts at the row-major rank of the multi-index times the base's flat length. -/
theorem C22_array_flatten_blocks {s base fd} (hp : Built (.array s base fd)) {a : NDArray Flt} (ha : a.WF) {free : Bool}
    {vv x} (h : (Pattern.array s base fd).flatten (.arr a) (some free) vv = .ok x) {idx} (hidx : Spec.MultiIndex s idx) :
    ∃ b, a.getItem idx = .ok b ∧ base.flatten (.arr b) (some free) vv =
      .ok (vec ((x.data.drop (Spec.rank s idx * base.flatLen free)).take (base.flatLen free))) := by
  have hw := hp.wf
  simp only [Pattern.WF] at hw
  have hacc : Acc (.array s base fd) (.arr a) vv := acc_of_flatten hp.wf (v := .arr a) ha h
  rw [acc_array] at hacc
  obtain ⟨_, e, hsh, _⟩ := hacc
  cases e
  have hlen : ∀ i < s.prod, ∀ y, base.flatten (.arr ⟨base.shape, chunk base.shape.prod a.data i⟩) (some free) vv = .ok y →
      y = vec y.data ∧ y.data.length = base.flatLen free := by
    intro i hi y hy
    obtain ⟨n, h1, h2, h3⟩ := C06_flatten_length (WF.built _ hw.2.2) (chunk_wf ha hsh hi) hy
    rw [flatLength_some] at h1
    injection h1 with h1
    refine ⟨?_, by rw [h3, h1]⟩
    cases y with | mk sh d => simp only [vec, NDArray.mk.injEq, and_true]; simp only at h2 h3; rw [h2, h3]
  refine ⟨_, getItem_eq hsh (multiIndex_mem hidx), ?_⟩
  rw [rank_eq_ravel hidx]
  cases free with
  | true =>
    rw [flatten_true, flattenFree_array_unfold] at h
    replace h := bind_ok h; obtain ⟨_, _, h⟩ := h
    replace h := bind_ok h; obtain ⟨_, h1, h⟩ := h
    cases h1
    exact flattenItems_items (f := fun sub => base.flattenFree sub vv) hsh hlen h _ (ravel_lt hidx)
  | false =>
    rw [flatten_false, flattenNF_array_unfold] at h
    replace h := bind_ok h; obtain ⟨_, _, h⟩ := h
    replace h := bind_ok h; obtain ⟨_, h1, h⟩ := h
    cases h1
    exact flattenItems_items (f := fun sub => base.flattenNF sub vv) hsh hlen h _ (ravel_lt hidx)

/-- C22 is not vacuous: a 2 × 3 array of simplexes folds, and the multi-index (1, 2) has rank 5. -/
example : (∃ v, (Pattern.array [2, 3] (.simplex 3 [] true none) none).fold (vec ((List.replicate 12 (1 : ℝ)).map .fin))
    (some true) none = .ok v) ∧ Spec.MultiIndex [2, 3] [1, 2] ∧ Spec.rank [2, 3] [1, 2] = 5 := by
  refine ⟨?_, ?_, by simp [Spec.rank]⟩
  · have hw : (Pattern.array [2, 3] (.simplex 3 [] true none) none).WF := by simp [Pattern.WF, isDict]
    obtain ⟨v, h, _⟩ := C10_free_vector (WF.built _ hw) (by simp [FiniteLb]) (by simp [NoEmpty])
      (r := List.replicate 12 (1 : ℝ)) (by simp [flatLength_some, flatLen]) none none
    exact ⟨v, h⟩
  · exact .cons (by decide) (.cons (by decide) .nil)

/-! ### C23: only the named members matter -/

theorem validate_agree (p : Pattern) : ∀ (v v' : Val Flt) (vv), Spec.Agree p v v' → p.validate v vv = p.validate v' vv := by
  induction p using Pattern.ind
    (Q := fun es => ∀ (vs vs' : List (String × Val Flt)) (vv), Spec.AgreeEs es vs vs' →
      validateEs es vs vv = validateEs es vs' vv) with
  | hdict es l fd ih =>
    intro v v' vv h
    cases v <;> cases v' <;> simp only [Spec.Agree] at h
    · rw [h]
    · cases h
    · cases h
    · simp only [Pattern.validate, Val.asDict, bind, Except.bind]; exact ih _ _ vv h
  | hnil vs vs' vv h => simp only [validateEs]
  | hcons k p r ihp ihr vs vs' vv h =>
    simp only [Spec.AgreeEs] at h
    rw [validateEs, validateEs]
    rcases h with ⟨⟨h1, h2⟩ | ⟨v, v', h1, h2, h3⟩, h4⟩
    · rw [h1, h2]
    · rw [h1, h2]
      simp only [ihp v v' vv h3, ihr vs vs' vv h4]
  | _ => intros; simp only [Spec.Agree] at *; subst_vars; rfl

theorem flattenNF_agree (p : Pattern) : ∀ (v v' : Val Flt) (vv), Spec.Agree p v v' → p.flattenNF v vv = p.flattenNF v' vv := by
  induction p using Pattern.ind
    (Q := fun es => ∀ (vs vs' : List (String × Val Flt)) (vv), Spec.AgreeEs es vs vs' →
      flattenNFEs es vs vv = flattenNFEs es vs' vv) with
  | hdict es l fd ih =>
    intro v v' vv h
    have hv := validate_agree (.dict es l fd) v v' vv h
    rw [flattenNF_dict_unfold, flattenNF_dict_unfold, hv]
    cases v <;> cases v' <;> simp only [Spec.Agree] at h
    · rw [h]
    · cases h
    · cases h
    · simp only [Val.asDict, bind, Except.bind]; rw [ih _ _ vv h]
  | hnil vs vs' vv h => simp only [flattenNFEs]
  | hcons k p r ihp ihr vs vs' vv h =>
    simp only [Spec.AgreeEs] at h
    rw [flattenNFEs, flattenNFEs]
    rcases h with ⟨⟨h1, h2⟩ | ⟨v, v', h1, h2, h3⟩, h4⟩
    · rw [h1, h2]
    · rw [h1, h2]
      simp only [ihp v v' vv h3, ihr vs vs' vv h4]
  | _ => intros; simp only [Spec.Agree] at *; subst_vars; rfl

theorem flattenFree_agree (p : Pattern) : ∀ (v v' : Val Flt) (vv), Spec.Agree p v v' →
    p.flattenFree v vv = p.flattenFree v' vv := by
  induction p using Pattern.ind
    (Q := fun es => ∀ (vs vs' : List (String × Val Flt)) (vv), Spec.AgreeEs es vs vs' →
      flattenFreeEs es vs vv = flattenFreeEs es vs' vv) with
  | hdict es l fd ih =>
    intro v v' vv h
    have hv := validate_agree (.dict es l fd) v v' vv h
    rw [flattenFree_dict_unfold, flattenFree_dict_unfold, hv]
    cases v <;> cases v' <;> simp only [Spec.Agree] at h
    · rw [h]
    · cases h
    · cases h
    · simp only [Val.asDict, bind, Except.bind]; rw [ih _ _ vv h]
  | hnil vs vs' vv h => simp only [flattenFreeEs]
  | hcons k p r ihp ihr vs vs' vv h =>
    simp only [Spec.AgreeEs] at h
    rw [flattenFreeEs, flattenFreeEs]
    rcases h with ⟨⟨h1, h2⟩ | ⟨v, v', h1, h2, h3⟩, h4⟩
    · rw [h1, h2]
    · rw [h1, h2]
      simp only [ihp v v' vv h3, ihr vs vs' vv h4]
  | _ => intros; simp only [Spec.Agree] at *; subst_vars; rfl

/-- **C23.**  Any two folded values that agree on the keys the pattern names (at every level of nesting; order of the
entries and extra keys are irrelevant) flatten to the same result or the same error, for every `free` and
`validate_value`, and validate to the same verdict. -/
theorem C23_flatten_depends_on_named_members (p : Pattern) {v v' : Val Flt} (h : Spec.Agree p v v') (free vv : Option Bool) :
    p.flatten v free vv = p.flatten v' free vv ∧ p.validate v vv = p.validate v' vv := by
  refine ⟨?_, validate_agree p v v' vv h⟩
  simp only [Pattern.flatten, flattenFree_agree p v v' vv h, flattenNF_agree p v v' vv h]

/-- C23 is not vacuous: reordering the entries and adding a key. -/
example (a b c : NDArray Flt) (q r : Pattern) (ha : Spec.Agree q (.arr a) (.arr a)) (hb : Spec.Agree r (.arr b) (.arr b)) :
    Spec.Agree (.dict (.cons "x" q (.cons "y" r .nil)) false none) (.dict [("x", .arr a), ("y", .arr b)])
      (.dict [("z", .arr c), ("y", .arr b), ("x", .arr a)]) := by
  simp [Spec.Agree, Spec.AgreeEs, List.lookup, ha, hb]

/-! ### C28: resolution of `free` -/

/-- **C28, resolution.**  `free=None` means the pattern's own default; with no default anywhere the three methods raise
`ValueError`. -/
theorem C28_free_none (p : Pattern) (x : NDArray Flt) (v : Val Flt) (vv : Option Bool) :
    (∀ b, p.freeDefault = some b →
      p.fold x none vv = p.fold x (some b) vv ∧ p.flatten v none vv = p.flatten v (some b) vv ∧
        p.flatLength none = p.flatLength (some b)) ∧
    (p.freeDefault = none →
      (∃ m, p.fold x none vv = .error (.valueError m)) ∧ (∃ m, p.flatten v none vv = .error (.valueError m)) ∧
        ∃ m, p.flatLength none = .error (.valueError m)) := by
  constructor
  · intro b hb
    simp [Pattern.fold, Pattern.flatten, flatLength, hb, freeWithDefault]
  · intro hb
    simp [Pattern.fold, Pattern.flatten, flatLength, hb, freeWithDefault, bind, Except.bind]

theorem shape_strip (p : Pattern) : (Spec.strip p).shape = p.shape := by
  induction p using Pattern.ind (Q := fun _ => True) with
  | harr s b fd ih => simp only [Spec.strip, Pattern.shape, ih]
  | hnil => trivial
  | hcons => trivial
  | _ => simp only [Spec.strip, Pattern.shape]

theorem flatLen_strip (p : Pattern) (b : Bool) : (Spec.strip p).flatLen b = p.flatLen b := by
  induction p using Pattern.ind (Q := fun es => flatLenEs (Spec.stripEs es) b = flatLenEs es b) with
  | hnum => simp only [Spec.strip, flatLen]
  | hsim => simp only [Spec.strip, flatLen]
  | hpsd => simp only [Spec.strip, flatLen]
  | harr s q fd ih => simp only [Spec.strip, flatLen, ih]
  | hdict es l fd ih => simp only [Spec.strip, flatLen, ih]
  | hnil => simp only [Spec.stripEs]
  | hcons k q r ihp ihr => simp only [Spec.stripEs, flatLenEs, ihp, ihr]

theorem validate_strip {α : Type} [Elem α] (p : Pattern) : ∀ (v : Val α) (vv), (Spec.strip p).validate v vv = p.validate v vv := by
  induction p using Pattern.ind (Q := fun es => ∀ (vs : List (String × Val α)) vv,
      validateEs (Spec.stripEs es) vs vv = validateEs es vs vv) with
  | hnum => intros; simp only [Spec.strip, Pattern.validate]
  | hsim => intros; simp only [Spec.strip, Pattern.validate]
  | hpsd => intros; simp only [Spec.strip, Pattern.validate]
  | harr s q fd ih => intro v vv; simp only [Spec.strip, Pattern.validate, ih, shape_strip]
  | hdict es l fd ih => intro v vv; simp only [Spec.strip, Pattern.validate, ih]
  | hnil vs vv => simp only [Spec.stripEs]
  | hcons k q r ihp ihr vs vv =>
    simp only [Spec.stripEs]
    rw [validateEs, validateEs]
    simp only [ihp, ihr]

theorem foldNF_strip {α : Type} [Elem α] (p : Pattern) : ∀ (x : NDArray α) (vv), (Spec.strip p).foldNF x vv = p.foldNF x vv := by
  induction p using Pattern.ind (Q := fun es => ∀ (x : NDArray α) vv off,
      foldNFEs (Spec.stripEs es) x vv off = foldNFEs es x vv off) with
  | hnum => intros; simp only [Spec.strip, foldNF]
  | hsim => intros; simp only [Spec.strip, foldNF]
  | hpsd => intros; simp only [Spec.strip, foldNF]
  | harr s q fd ih =>
    intro x vv
    have hv := validate_strip (α := α) (.array s q fd)
    simp only [Spec.strip] at hv
    simp only [Spec.strip]
    rw [foldNF_array_unfold, foldNF_array_unfold]
    simp only [ih, shape_strip, flatLen_strip, hv]
  | hdict es l fd ih =>
    intro x vv
    have hv := validate_strip (α := α) (.dict es l fd)
    have hl := fun b => flatLen_strip (.dict es l fd) b
    simp only [Spec.strip, flatLen] at hv hl
    simp only [Spec.strip]
    rw [foldNF_dict_unfold, foldNF_dict_unfold]
    simp only [ih, hl, hv]
  | hnil x vv off => simp only [Spec.stripEs]
  | hcons k q r ihp ihr x vv off =>
    simp only [Spec.stripEs]
    rw [foldNFEs, foldNFEs]
    simp only [ihp, ihr, flatLen_strip]

theorem foldFree_strip (p : Pattern) : ∀ (x : NDArray Flt), (Spec.strip p).foldFree x = p.foldFree x := by
  induction p using Pattern.ind (Q := fun es => ∀ (x : NDArray Flt) off,
      foldFreeEs (Spec.stripEs es) x off = foldFreeEs es x off) with
  | hnum => intros; simp only [Spec.strip, foldFree]
  | hsim => intros; simp only [Spec.strip, foldFree]
  | hpsd => intros; simp only [Spec.strip, foldFree]
  | harr s q fd ih =>
    intro x
    simp only [Spec.strip]
    rw [foldFree_array_unfold, foldFree_array_unfold]
    simp only [ih, shape_strip, flatLen_strip]
  | hdict es l fd ih =>
    intro x
    have hl := fun b => flatLen_strip (.dict es l fd) b
    simp only [Spec.strip, flatLen] at hl
    simp only [Spec.strip]
    rw [foldFree_dict_unfold, foldFree_dict_unfold]
    simp only [ih, hl]
  | hnil x off => simp only [Spec.stripEs]
  | hcons k q r ihp ihr x off =>
    simp only [Spec.stripEs]
    rw [foldFreeEs, foldFreeEs]
    simp only [ihp, ihr, flatLen_strip]

theorem flattenNF_strip (p : Pattern) : ∀ (v : Val Flt) (vv), (Spec.strip p).flattenNF v vv = p.flattenNF v vv := by
  induction p using Pattern.ind (Q := fun es => ∀ (vs : List (String × Val Flt)) vv,
      flattenNFEs (Spec.stripEs es) vs vv = flattenNFEs es vs vv) with
  | hnum => intros; simp only [Spec.strip, flattenNF]
  | hsim => intros; simp only [Spec.strip, flattenNF]
  | hpsd => intros; simp only [Spec.strip, flattenNF]
  | harr s q fd ih =>
    intro v vv
    have hv := validate_strip (α := Flt) (.array s q fd)
    simp only [Spec.strip] at hv
    simp only [Spec.strip]
    rw [flattenNF_array_unfold, flattenNF_array_unfold]
    simp only [ih, hv]
  | hdict es l fd ih =>
    intro v vv
    have hv := validate_strip (α := Flt) (.dict es l fd)
    simp only [Spec.strip] at hv
    simp only [Spec.strip]
    rw [flattenNF_dict_unfold, flattenNF_dict_unfold]
    simp only [ih, hv]
  | hnil vs vv => simp only [Spec.stripEs]
  | hcons k q r ihp ihr vs vv =>
    simp only [Spec.stripEs]
    rw [flattenNFEs, flattenNFEs]
    simp only [ihp, ihr]

theorem flattenFree_strip (p : Pattern) : ∀ (v : Val Flt) (vv), (Spec.strip p).flattenFree v vv = p.flattenFree v vv := by
  induction p using Pattern.ind (Q := fun es => ∀ (vs : List (String × Val Flt)) vv,
      flattenFreeEs (Spec.stripEs es) vs vv = flattenFreeEs es vs vv) with
  | hnum => intros; simp only [Spec.strip, flattenFree]
  | hsim => intros; simp only [Spec.strip, flattenFree]
  | hpsd => intros; simp only [Spec.strip, flattenFree]
  | harr s q fd ih =>
    intro v vv
    have hv := validate_strip (α := Flt) (.array s q fd)
    simp only [Spec.strip] at hv
    simp only [Spec.strip]
    rw [flattenFree_array_unfold, flattenFree_array_unfold]
    simp only [ih, hv]
  | hdict es l fd ih =>
    intro v vv
    have hv := validate_strip (α := Flt) (.dict es l fd)
    simp only [Spec.strip] at hv
    simp only [Spec.strip]
    rw [flattenFree_dict_unfold, flattenFree_dict_unfold]
    simp only [ih, hv]
  | hnil vs vv => simp only [Spec.stripEs]
  | hcons k q r ihp ihr vs vv =>
    simp only [Spec.stripEs]
    rw [flattenFreeEs, flattenFreeEs]
    simp only [ihp, ihr]

/-- **C28, explicit `free`.**  With an explicit `free` argument no stored default, at any node, matters. -/
theorem C28_explicit_overrides (p : Pattern) (b : Bool) (x : NDArray Flt) (v : Val Flt) (vv : Option Bool) :
    p.fold x (some b) vv = (Spec.strip p).fold x (some b) vv ∧
      p.flatten v (some b) vv = (Spec.strip p).flatten v (some b) vv ∧
      p.flatLength (some b) = (Spec.strip p).flatLength (some b) := by
  simp only [Pattern.fold, Pattern.flatten, flatLength, freeWithDefault_some, bind, Except.bind, foldFree_strip,
    foldNF_strip, flattenFree_strip, flattenNF_strip, flatLen_strip, and_self]

/-- **C28, members' defaults.**  Two patterns that differ only in the `free_default`s stored below the top give the same
results, for every `free` argument including `None`. -/
theorem C28_member_defaults_ignored {p q : Pattern} (h : Spec.strip p = Spec.strip q) (htop : p.freeDefault = q.freeDefault)
    (free vv : Option Bool) (x : NDArray Flt) (v : Val Flt) :
    p.fold x free vv = q.fold x free vv ∧ p.flatten v free vv = q.flatten v free vv ∧
      p.flatLength free = q.flatLength free := by
  rcases freeWithDefault_cases p.freeDefault free with ⟨b, _, hb⟩ | ⟨h1, rfl⟩
  · obtain ⟨e1, e2, e3⟩ := hb p rfl x v vv
    obtain ⟨e4, e5, e6⟩ := hb q htop.symm x v vv
    obtain ⟨e7, e8, e9⟩ := C28_explicit_overrides p b x v vv
    obtain ⟨e10, e11, e12⟩ := C28_explicit_overrides q b x v vv
    rw [e1, e2, e3, e4, e5, e6, e7, e8, e9, e10, e11, e12, h]
    exact ⟨rfl, rfl, rfl⟩
  · have h2 : q.freeDefault = none := htop ▸ h1
    simp [Pattern.fold, Pattern.flatten, flatLength, h1, h2, freeWithDefault, bind, Except.bind]

/-- C28 is not vacuous: a dictionary whose member changes its default. -/
example : Spec.strip (.dict (.cons "x" (.simplex 3 [2] true none) .nil) false (some true)) =
    Spec.strip (.dict (.cons "x" (.simplex 3 [2] true (some false)) .nil) false (some true)) := by
  simp [Spec.strip, Spec.stripEs]

end Paragami
