import Verif.Props.Containers
import Verif.Props.Validation
import Verif.Props.Empty
import Verif.Spec.Marked

/-! # `flat_indices` lists the positions of true entries of a flat mask -/

set_option linter.unusedSimpArgs false

namespace Paragami
open Pattern NDArray

/-- The positions of `true` in a list. -/
def positions (l : List Bool) : List Nat := (List.range l.length).filter fun i => l.getD i false

theorem positions_nil : positions [] = [] := rfl

theorem positions_append (l l' : List Bool) :
    positions (l ++ l') = positions l ++ (positions l').map (· + l.length) := by
  unfold positions
  rw [List.length_append, List.range_add, List.filter_append, List.filter_map]
  congr 1
  · apply List.filter_congr
    intro i hi
    simp only [List.getD_eq_getElem?_getD]
    rw [List.getElem?_append_left (List.mem_range.mp hi)]
  · have : (fun i => (l ++ l').getD i false) ∘ (fun x => l.length + x) = fun i => l'.getD i false := by
      funext i
      simp only [Function.comp, List.getD_eq_getElem?_getD]
      rw [List.getElem?_append_right (by omega)]
      simp
    rw [this]
    exact List.map_congr_left fun i _ => Nat.add_comm _ _

theorem positions_cons (b : Bool) (l : List Bool) :
    positions (b :: l) = (if b then [0] else []) ++ (positions l).map (· + 1) := by
  have := positions_append [b] l
  rw [List.singleton_append] at this
  rw [this]
  cases b <;> simp [positions]

theorem positions_flatMap {n k : Nat} (f : Nat → List Bool) (hf : ∀ i < n, (f i).length = k) :
    positions ((List.range n).flatMap f) = (List.range n).flatMap fun i => (positions (f i)).map (· + i * k) := by
  induction n with
  | zero => rfl
  | succ n ih =>
    rw [List.range_succ, List.flatMap_append, positions_append, ih (fun i hi => hf i (by omega)), List.flatMap_append,
      length_flatMap_range f (fun i hi => hf i (by omega))]
    simp

theorem positions_replicate_false (n : Nat) : positions (List.replicate n false) = [] := by
  unfold positions
  rw [List.filter_eq_nil_iff]
  intro i hi
  simp [List.getElem?_replicate]
  split <;> simp

theorem positions_replicate_true (n : Nat) : positions (List.replicate n true) = List.range n := by
  unfold positions
  rw [List.length_replicate, List.filter_eq_self]
  intro i hi
  simp [List.mem_range.mp hi]

theorem mem_positions {l : List Bool} {i : Nat} : i ∈ positions l ↔ l[i]? = some true := by
  simp only [positions, List.mem_filter, List.mem_range, List.getD_eq_getElem?_getD]
  constructor
  · rintro ⟨h1, h2⟩
    rw [List.getElem?_eq_getElem h1] at h2 ⊢
    simpa using h2
  · intro h
    obtain ⟨h1, _⟩ := List.getElem?_eq_some_iff.mp h
    exact ⟨h1, by simp [h]⟩

theorem positions_eq_nil {l : List Bool} (h : l.any id = false) : positions l = [] := by
  rw [List.eq_nil_iff_forall_not_mem]
  intro i hi
  rw [mem_positions] at hi
  rw [List.any_eq_false] at h
  exact h true (List.mem_of_getElem? hi) rfl

theorem positions_sorted (l : List Bool) : (positions l).Pairwise (· < ·) :=
  List.pairwise_lt_range.filter _

theorem length_positions (l : List Bool) : (positions l).length = l.count true := by
  induction l with
  | nil => rfl
  | cons b l ih => rw [positions_cons]; cases b <;> simp [ih]

theorem maskSelect_positions {α : Type} (d : List α) (m : List Bool) (h : d.length = m.length) :
    (positions m).map (d[·]?) = (maskSelect d m).map some := by
  induction d generalizing m with
  | nil => cases m with
    | nil => rfl
    | cons => simp at h
  | cons x d ih =>
    cases m with
    | nil => simp at h
    | cons b m =>
      have := ih m (by simpa using h)
      rw [positions_cons]
      cases b
      · simp only [Bool.false_eq_true, if_false, List.nil_append, List.map_map]
        simpa [maskSelect, Function.comp_def] using this
      · simp only [if_true, List.map_append, List.map_map]
        simpa [maskSelect, Function.comp_def] using this

theorem maskSelect_range (m : List Bool) : maskSelect (List.range m.length) m = positions m := by
  have h := maskSelect_positions (List.range m.length) m (by simp)
  have h2 : (positions m).map ((List.range m.length)[·]?) = (positions m).map some := by
    apply List.map_congr_left
    intro i hi
    have : i < m.length := by
      have := List.mem_filter.mp hi
      simpa using this.1
    simp [this]
  rw [h2] at h
  exact (List.map_injective_iff.mpr (Option.some_injective _) h).symm

namespace Pattern

mutual
/-- The flat mask whose positions `flat_indices` returns. -/
def flatMask (free : Bool) : Pattern → Val Bool → List Bool
  | .numeric _ _ _ _ _ _, .arr a => a.data
  | .simplex k s _ _, .arr a =>
    if free then (List.range s.prod).flatMap fun i => List.replicate (k - 1) ((chunk k a.data i).any id) else a.data
  | .psd n _ _ _, .arr a => if free then List.replicate (tri n) (a.data.any id) else a.data
  | .array s base _, .arr a =>
    (List.range s.prod).flatMap fun i => flatMask free base (.arr ⟨base.shape, chunk base.shape.prod a.data i⟩)
  | .dict es _ _, .dict bs => flatMaskEs free es bs
  | _, _ => []
/-- `flatMask` for the members. -/
def flatMaskEs (free : Bool) : Entries → List (String × Val Bool) → List Bool
  | .nil, _ => []
  | .cons k p r, bs => (match bs.lookup k with | some b => flatMask free p b | none => []) ++ flatMaskEs free r bs
end

theorem length_flatMask (free : Bool) (p : Pattern) (hw : p.WF) : ∀ b : Val Bool, b.WF → Spec.ShapeOk p b →
    (flatMask free p b).length = p.flatLen free := by
  revert hw
  induction p using Pattern.ind
    (Q := fun es => WFEs es → ∀ bs : List (String × Val Bool), Val.WFEs bs → Spec.ShapeOkEs es bs →
      (flatMaskEs free es bs).length = flatLenEs es free) with
  | hnum c s lb ub dv fd =>
    intro _ b hb hs
    cases b with
    | dict d => simp [Spec.ShapeOk] at hs
    | arr a =>
      simp only [Spec.ShapeOk] at hs
      rw [flatMask, flatLen, ← hs, ← atleast1d_data, atleast1d_wf hb]
  | hsim k s dv fd =>
    intro _ b hb hs
    cases b with
    | dict d => simp [Spec.ShapeOk] at hs
    | arr a =>
      simp only [Spec.ShapeOk] at hs
      have hl : a.data.length = (s ++ [k]).prod := by rw [← hs]; exact hb
      cases free
      · simp [flatMask, flatLen, hl]
      · simp only [flatMask, flatLen, if_true]
        rw [length_flatMap_range (k := k - 1) _ (fun i _ => by simp)]; simp
  | hpsd n lb dv fd =>
    intro _ b hb hs
    cases b with
    | dict d => simp [Spec.ShapeOk] at hs
    | arr a =>
      simp only [Spec.ShapeOk] at hs
      have hl : a.data.length = n * n := by have : a.data.length = a.shape.prod := hb; rw [this, hs]; simp
      cases free
      · simp [flatMask, flatLen, hl, sq]
      · simp [flatMask, flatLen, tri]
  | harr s q fd ih =>
    intro hw b hb hs
    cases b with
    | dict d => simp [Spec.ShapeOk] at hs
    | arr a =>
      simp only [Pattern.WF] at hw
      simp only [Spec.ShapeOk] at hs
      simp only [flatMask, flatLen]
      rw [length_flatMap_range (k := q.flatLen free)]
      intro i hi
      exact ih hw.2.2 _ (chunk_wf hb hs hi) (shapeOk_of_shape hw.2.2 hw.2.1 _)
  | hdict es l fd ih =>
    intro hw b hb hs
    cases b with
    | arr a => simp [Spec.ShapeOk] at hs
    | dict bs =>
      simp only [Pattern.WF] at hw
      simp only [flatMask, flatLen]
      exact ih hw.2 bs hb hs
  | hnil _ bs _ _ => simp [flatMaskEs, flatLenEs]
  | hcons k p r ihp ihr hw bs hb hs =>
    simp only [WFEs] at hw
    simp only [Spec.ShapeOkEs] at hs
    obtain ⟨⟨b, hl, hb1⟩, hs⟩ := hs
    simp only [flatMaskEs, flatLenEs, hl, List.length_append]
    rw [ihp hw.1 b (WFEs_lookup hb hl) hb1, ihr hw.2.2 bs hb hs]

/-- If an array mask has no mark, the flat mask has none. -/
theorem flatMask_none (free : Bool) (p : Pattern) : ∀ a : NDArray Bool, a.data.any id = false →
    (flatMask free p (.arr a)).any id = false := by
  induction p using Pattern.ind (Q := fun _ => True) with
  | hnum c s lb ub dv fd => intro a h; simpa only [flatMask] using h
  | hsim k s dv fd =>
    intro a h
    cases free
    · simpa [flatMask] using h
    · simp only [flatMask, if_true, List.any_flatMap, List.any_eq_false]
      intro i _
      have : (chunk k a.data i).any id = false := by
        rw [List.any_eq_false] at h ⊢
        exact fun x hx => h x (mem_chunk hx)
      simp [this]
  | hpsd n lb dv fd =>
    intro a h
    cases free
    · simpa [flatMask] using h
    · simp [flatMask, h]
  | harr s q fd ih =>
    intro a h
    simp only [flatMask, List.any_flatMap, List.any_eq_false]
    intro i _
    have : (chunk q.shape.prod a.data i).any id = false := by
      rw [List.any_eq_false] at h ⊢
      exact fun x hx => h x (mem_chunk hx)
    rw [ih ⟨q.shape, chunk q.shape.prod a.data i⟩ this]; simp
  | hdict es l fd ih => intro a h; simp [flatMask]
  | hnil => trivial
  | hcons => trivial

theorem freeIndexLoop_eq (kf : Nat) (o : Nat) (rows : List (List Bool)) :
    Simplex.freeIndexLoop kf o rows =
      (positions (rows.flatMap fun row => List.replicate kf (row.any id))).map (· + o * kf) := by
  induction rows generalizing o with
  | nil => rfl
  | cons row rest ih =>
    rw [Simplex.freeIndexLoop, ih, List.flatMap_cons, positions_append, List.map_append]
    congr 1
    · cases row.any id
      · simp [positions_replicate_false]
      · simp only [if_true, positions_replicate_true]
        exact List.map_congr_left fun i _ => Nat.add_comm _ _
    · simp only [List.length_replicate, List.map_map]
      apply List.map_congr_left
      intro i _
      simp only [Function.comp]
      ring

theorem flatIndicesItems_eq {f : Val Bool → Except Err (List Nat)} {a : NDArray Bool} {s bshape : List Nat} {len : Nat}
    (ha : a.shape = s ++ bshape) {g : Nat → List Nat}
    (hg : ∀ i < s.prod, f (.arr ⟨bshape, chunk bshape.prod a.data i⟩) = .ok (g i))
    (hn : ∀ i < s.prod, (chunk bshape.prod a.data i).any id = false → g i = []) :
    ∀ (items : List (List Nat)) (o : Nat), (∀ it ∈ items, it ∈ productRanges s) →
      flatIndicesItems f a len items o =
        .ok ((items.zipIdx.flatMap fun it => (g (ravel s it.1)).map (· + (o + it.2 * len)))) := by
  intro items
  induction items with
  | nil => intro o _; rfl
  | cons it items ih =>
    intro o h
    have hit := h it (by simp)
    have hlt : ravel s it < s.prod := by
      have : ravel s it ∈ (productRanges s).map (ravel s) := List.mem_map_of_mem hit
      rw [map_ravel_productRanges] at this
      exact List.mem_range.mp this
    rw [flatIndicesItems, getItem_eq ha hit]
    have hstep : (if (chunk bshape.prod a.data (ravel s it)).any id = true then
        f (.arr ⟨bshape, chunk bshape.prod a.data (ravel s it)⟩) >>= fun here =>
          flatIndicesItems f a len items (o + len) >>= fun rest => pure (here.map (· + o) ++ rest)
        else flatIndicesItems f a len items (o + len) >>= fun rest => pure (([] : List Nat).map (· + o) ++ rest)) =
        flatIndicesItems f a len items (o + len) >>= fun rest => pure ((g (ravel s it)).map (· + o) ++ rest) := by
      by_cases hb : (chunk bshape.prod a.data (ravel s it)).any id = true
      · rw [if_pos hb, hg _ hlt]; rfl
      · rw [if_neg hb, hn _ hlt (by simpa using hb)]
    simp only [bind, Except.bind] at hstep ⊢
    rw [hstep]
    rw [ih (o + len) fun i hi => h i (by simp [hi])]
    simp only [pure, Except.pure, List.zipIdx_cons, List.flatMap_cons, Except.ok.injEq, Nat.zero_mul, Nat.add_zero,
      Nat.zero_add]
    congr 1
    rw [List.zipIdx_succ, List.flatMap_map]
    apply List.flatMap_congr
    intro x _
    apply List.map_congr_left
    intro y _
    simp only
    ring

theorem zipIdx_productRanges {α : Type} (s : List Nat) (F : Nat → Nat → List α) :
    ((productRanges s).zipIdx.flatMap fun it => F (ravel s it.1) it.2) = (List.range s.prod).flatMap fun i => F i i := by
  have h : (productRanges s).zipIdx.map (fun it => (ravel s it.1, it.2)) = (List.range s.prod).map fun i => (i, i) := by
    have h0 : (productRanges s).zipIdx.map (fun it => (ravel s it.1, it.2)) =
        ((productRanges s).map (ravel s)).zipIdx := by
      rw [List.zipIdx_map]; rfl
    rw [h0, map_ravel_productRanges]
    apply List.ext_getElem
    · simp
    · intro i h1 h2; simp
  have := congrArg (fun l => l.flatMap fun (q : Nat × Nat) => F q.1 q.2) h
  simpa [List.flatMap_map] using this

/-- `flat_indices` returns the positions of the true entries of `flatMask`. -/
theorem flatIdx_eq (free : Bool) (p : Pattern) (hw : p.WF) : ∀ b : Val Bool, b.WF → Spec.ShapeOk p b →
    p.flatIdx b free = .ok (positions (flatMask free p b)) := by
  revert hw
  induction p using Pattern.ind
    (Q := fun es => WFEs es → ∀ bs : List (String × Val Bool), Val.WFEs bs → Spec.ShapeOkEs es bs → ∀ o,
      flatIdxEs es bs free o = .ok ((positions (flatMaskEs free es bs)).map (· + o))) with
  | hnum c s lb ub dv fd =>
    intro hw b hb hs
    cases b with
    | dict d => simp [Spec.ShapeOk] at hs
    | arr a =>
      simp only [Spec.ShapeOk] at hs
      simp only [flatIdx, Val.asArr, bind, Except.bind, Numeric.flatIndices, flatMask]
      by_cases h : a.data.any id = true
      · have hl : a.data.length = s.prod := by rw [← hs, ← atleast1d_data, atleast1d_wf hb]
        simp only [h, Bool.not_true, Bool.false_eq_true, if_false, Numeric.validateShape, hs, if_true, atleast1d_data]
        rw [← hl, maskSelect_range]
      · simp only [Bool.not_eq_true] at h
        simp only [h, Bool.not_false, if_true, positions_eq_nil h]
  | hsim k s dv fd =>
    intro hw b hb hs
    cases b with
    | dict d => simp [Spec.ShapeOk] at hs
    | arr a =>
      have hn := flatMask_none free (.simplex k s dv fd) a
      simp only [Spec.ShapeOk] at hs
      have hl : a.data.length = (s ++ [k]).prod := by rw [← hs]; exact hb
      simp only [flatIdx, Val.asArr, bind, Except.bind, Simplex.flatIndices]
      by_cases h : a.data.any id = true
      · simp only [h, Bool.not_true, Bool.false_eq_true, if_false, Simplex.validateShape, hs, if_true]
        cases free
        · have hf : Simplex.foldNF k s true (vec (List.range (s ++ [k]).prod)) (some false) =
              .ok ⟨s ++ [k], List.range (s ++ [k]).prod⟩ := by
            rw [simplex_foldNF_ok]
            refine ⟨by simp, by simp, rfl, ?_⟩
            rw [simplex_validate_true]; simp
          simp only [Bool.not_false, if_true, hf, pure, Except.pure, flatMask, Bool.false_eq_true, if_false]
          rw [← hl, maskSelect_range]
        · simp only [Bool.not_true, Bool.false_eq_true, if_false, flatMask, if_true, freeIndexLoop_eq, rows_eq,
            List.flatMap_map]
          simp
      · simp only [Bool.not_eq_true] at h
        simp only [h, Bool.not_false, if_true]
        rw [positions_eq_nil (hn h)]
  | hpsd n lb dv fd =>
    intro hw b hb hs
    cases b with
    | dict d => simp [Spec.ShapeOk] at hs
    | arr a =>
      have hn := flatMask_none free (.psd n lb dv fd) a
      simp only [Spec.ShapeOk] at hs
      have hl : a.data.length = n ^ 2 := by
        have : a.data.length = a.shape.prod := hb
        rw [this, hs, sq]; simp
      simp only [flatIdx, Val.asArr, bind, Except.bind, PSD.flatIndices]
      by_cases h : a.data.any id = true
      · simp only [h, Bool.not_true, Bool.false_eq_true, if_false, PSD.validateShape, hs, if_true]
        cases free
        · have hf : PSD.foldNF n lb.toFlt true (vec (List.range (n ^ 2))) (some false) =
              .ok ⟨[n, n], List.range (n ^ 2)⟩ := by
            rw [psd_foldNF_ok]
            refine ⟨by simp, by simp [sq], rfl, ?_⟩
            rw [psd_validate_true]; simp
          simp only [Bool.not_false, if_true, hf, pure, Except.pure, flatMask, Bool.false_eq_true, if_false]
          rw [← hl, maskSelect_range]
        · simp only [Bool.not_true, Bool.false_eq_true, if_false, flatMask, if_true, h, positions_replicate_true]
          rfl
      · simp only [Bool.not_eq_true] at h
        simp only [h, Bool.not_false, if_true]
        rw [positions_eq_nil (hn h)]
  | harr s q fd ih =>
    intro hw b hb hs
    have hacc := (shapeOk_iff_acc _ hw b).mpr hs
    cases b with
    | dict d => simp [Spec.ShapeOk] at hs
    | arr a =>
      simp only [Pattern.WF] at hw
      simp only [Spec.ShapeOk] at hs
      rw [flatIdx, requireValid_ok_iff.mpr hacc]
      simp only [bind, Except.bind, Val.asArr]
      rw [flatIndicesItems_eq hs
        (g := fun i => positions (flatMask free q (.arr ⟨q.shape, chunk q.shape.prod a.data i⟩)))
        (fun i hi => ih hw.2.2 _ (chunk_wf hb hs hi) (shapeOk_of_shape hw.2.2 hw.2.1 _))
        (fun i _ h => positions_eq_nil (flatMask_none free q _ h)) _ _ (fun _ h => h)]
      rw [flatMask, positions_flatMap (k := q.flatLen free) _ (fun i hi => length_flatMask free q hw.2.2 _
        (chunk_wf hb hs hi) (shapeOk_of_shape hw.2.2 hw.2.1 _))]
      rw [zipIdx_productRanges s (fun i j => (positions (flatMask free q
        (.arr ⟨q.shape, chunk q.shape.prod a.data i⟩))).map (· + (0 + j * q.flatLen free)))]
      simp
  | hdict es l fd ih =>
    intro hw b hb hs
    have hacc := (shapeOk_iff_acc _ hw b).mpr hs
    cases b with
    | arr a => simp [Spec.ShapeOk] at hs
    | dict bs =>
      simp only [Pattern.WF] at hw
      rw [flatIdx, requireValid_ok_iff.mpr hacc]
      simp only [bind, Except.bind, Val.asDict]
      rw [ih hw.2 bs hb hs 0, flatMask]
      simp
  | hnil _ bs _ _ o => simp [flatIdxEs, flatMaskEs, positions_nil]
  | hcons k p r ihp ihr hw bs hb hs o =>
    simp only [WFEs] at hw
    simp only [Spec.ShapeOkEs] at hs
    obtain ⟨⟨b, hl, hb1⟩, hs⟩ := hs
    simp only [flatIdxEs, hl, bind, Except.bind, pure, Except.pure]
    rw [ihp hw.1 b (WFEs_lookup hb hl) hb1, ihr hw.2.2 bs hb hs]
    simp only [flatMaskEs, hl, positions_append, List.map_append, List.map_map, Except.ok.injEq,
      List.append_cancel_left_eq]
    rw [length_flatMask free p hw.1 b (WFEs_lookup hb hl) hb1]
    apply List.map_congr_left
    intro i _
    simp only [Function.comp]
    omega

theorem flatIndices_some (p : Pattern) (b : Val Bool) (free : Bool) : p.flatIndices b (some free) = p.flatIdx b free := by
  cases p with
  | array s q fd => rfl
  | dict es l fd => rfl
  | numeric c s lb ub dv fd =>
    cases b with
    | dict d => rfl
    | arr a =>
      simp only [flatIndices]
      split
      · next h => simp [flatIdx, Val.asArr, bind, Except.bind, Numeric.flatIndices, h]
      · rfl
  | simplex k s dv fd =>
    cases b with
    | dict d => rfl
    | arr a =>
      simp only [flatIndices]
      split
      · next h => simp [flatIdx, Val.asArr, bind, Except.bind, Simplex.flatIndices, h]
      · rfl
  | psd n lb dv fd =>
    cases b with
    | dict d => rfl
    | arr a =>
      simp only [flatIndices]
      split
      · next h => simp [flatIdx, Val.asArr, bind, Except.bind, PSD.flatIndices, h]
      · rfl

end Pattern

end Paragami
