import Verif.Proofs.MemoryTree
import Verif.Proofs.Built

/-!
# C67: sharing of memory between arguments and results
-/

set_option linter.unusedSimpArgs false

namespace Paragami
open Memory Spec

/-- **C67.**  `flatten` computes what the value-level model says, raises exactly when it does, and returns an array made
of new, distinct cells: no later writes to the result change any value that existed before the call (in particular the
argument), and no later writes to anything that existed before change the result. -/
theorem C67_flatten (p : Pattern) {v : Val Addr} {free vv : Option Bool} {m : Mem} (hv : Allocated m (leaves v)) :
    (∀ e, userFlatten p v free vv m = .error e ↔ p.flatten (v.map (rd m)) free vv = .error e) ∧
    ∀ r m', userFlatten p v free vv m = .ok (r, m') →
      p.flatten (v.map (rd m)) free vv = .ok (r.map (rd m')) ∧
      r.data.Nodup ∧
      (∀ w : Val Addr, Allocated m (leaves w) → ∀ ws : List (Addr × Flt), (∀ e ∈ ws, e.1 ∈ r.data) →
        w.map (rd (write m' ws)) = w.map (rd m)) ∧
      (∀ ws : List (Addr × Flt), (∀ e ∈ ws, e.1 < m.length) → r.map (rd (write m' ws)) = r.map (rd m')) := by
  refine ⟨fun e => (userFlatten_ref hv).err, ?_⟩
  intro r m' h
  obtain ⟨hp, g, hq, rfl, hf, hn⟩ := (userFlatten_ref hv).ok h
  refine ⟨hq, hn, ?_, ?_⟩
  · intro w hw ws hws
    rw [← val_rd_prefix hp hw]
    refine val_map_congr w fun a ha => rd_write_other ?_
    rintro e he rfl
    exact absurd (hw _ ha) (not_lt.mpr (hf _ (hws e he)).1)
  · intro ws hws
    simp only [NDArray.map, NDArray.mk.injEq, true_and]
    refine List.map_congr_left fun a ha => rd_write_other ?_
    rintro e he rfl
    exact absurd (hws e he) (not_lt.mpr (hf _ ha).1)

/-- **C67.**  The same for `fold` of a free value, for every pattern. -/
theorem C67_fold_free {p : Pattern} (hp : Pattern.Built p) {x : NDArray Addr} {free vv : Option Bool} {m : Mem}
    (hx : Allocated m x.data) (hfree : Pattern.freeWithDefault p.freeDefault free = .ok true) :
    (∀ e, userFold p x free vv m = .error e ↔ p.fold (x.map (rd m)) free vv = .error e) ∧
    ∀ r m', userFold p x free vv m = .ok (r, m') →
      p.fold (x.map (rd m)) free vv = .ok (r.map (rd m')) ∧
      (∀ w : Val Addr, Allocated m (leaves w) → ∀ ws : List (Addr × Flt), (∀ e ∈ ws, e.1 ∈ leaves r) →
        w.map (rd (write m' ws)) = w.map (rd m)) ∧
      (∀ ws : List (Addr × Flt), (∀ e ∈ ws, e.1 < m.length) → r.map (rd (write m' ws)) = r.map (rd m')) := by
  refine ⟨fun e => (userFold_ref hp.wf hx).err, ?_⟩
  intro r m' h
  obtain ⟨hpr, g, hq, rfl, f, hf, hR⟩ := (userFold_ref hp.wf hx).ok h
  rw [hfree] at hf; cases hf
  refine ⟨hq, ?_, ?_⟩
  · intro w hw ws hws
    rw [← val_rd_prefix hpr hw]
    refine val_map_congr w fun a ha => rd_write_other ?_
    rintro e he rfl
    exact absurd (hw _ ha) (not_lt.mpr (hR.fresh rfl _ (hws e he)))
  · intro ws hws
    refine val_map_congr r fun a ha => rd_write_other ?_
    rintro e he rfl
    exact absurd (hws e he) (not_lt.mpr (hR.fresh rfl _ ha))

/-- **C67.**  Folding a non-free vector raises and computes as the value-level model says, does not change the argument,
and the result shares memory with the argument exactly outside `PatternArray`s: `viewMask p` tells for every position of
the flat vector whether the folded entry is the very same cell or a new one. -/
theorem C67_fold_nonfree {p : Pattern} (hp : Pattern.Built p) {x : NDArray Addr} {free vv : Option Bool} {m : Mem}
    (hx : Allocated m x.data) (hfree : Pattern.freeWithDefault p.freeDefault free = .ok false) :
    (∀ e, userFold p x free vv m = .error e ↔ p.fold (x.map (rd m)) free vv = .error e) ∧
    ∀ r m', userFold p x free vv m = .ok (r, m') →
      p.fold (x.map (rd m)) free vv = .ok (r.map (rd m')) ∧
      x.map (rd m') = x.map (rd m) ∧
      Shares m.length (viewMask p) x.data (leaves r) := by
  refine ⟨fun e => (userFold_ref hp.wf hx).err, ?_⟩
  intro r m' h
  obtain ⟨hpr, g, hq, rfl, f, hf, hR⟩ := (userFold_ref hp.wf hx).ok h
  rw [hfree] at hf; cases hf
  exact ⟨hq, arr_rd_prefix hpr hx, hR.shares rfl⟩

/-- **C67.**  What sharing means to a program: after folding a non-free vector, writing the `i`-th folded entry changes
the `i`-th entry of the argument to the same value when the position is a view, and leaves the whole argument alone when
it is a copy; writing the argument's `i`-th entry is seen in the result exactly in the same cases. -/
theorem C67_write_through {p : Pattern} (hp : Pattern.Built p) {x : NDArray Addr} {free vv : Option Bool} {m : Mem}
    (hx : Allocated m x.data) (hfree : Pattern.freeWithDefault p.freeDefault free = .ok false) {r m'}
    (h : userFold p x free vv m = .ok (r, m')) (i : Nat) (y : Flt) :
    (viewMask p).length = x.data.length ∧ (leaves r).length = x.data.length ∧
    ∀ (hm : i < (viewMask p).length) (hi : i < x.data.length) (hr : i < (leaves r).length),
      ((viewMask p)[i] = true →
        rd (write m' [((leaves r)[i], y)]) x.data[i] = y ∧ rd (write m' [(x.data[i], y)]) (leaves r)[i] = y) ∧
      ((viewMask p)[i] = false →
        x.map (rd (write m' [((leaves r)[i], y)])) = x.map (rd m) ∧
        ∀ ws : List (Addr × Flt), (∀ e ∈ ws, e.1 ∈ x.data) →
          rd (write m' ws) (leaves r)[i] = rd m' (leaves r)[i]) := by
  obtain ⟨hpr, g, hq, rfl, f, hf, hR⟩ := (userFold_ref hp.wf hx).ok h
  rw [hfree] at hf; cases hf
  obtain ⟨h1, h2, h3⟩ := Shares.get (hR.shares rfl)
  refine ⟨h1, h2.symm, ?_⟩
  intro hm hi hr
  have h4 := h3 i hm hi hr
  refine ⟨?_, ?_⟩
  · intro hv
    rw [hv] at h4
    simp only [if_true] at h4
    have hlt : x.data[i] < m'.length := lt_of_lt_of_le (hx _ (List.getElem_mem hi)) hpr.length_le
    rw [h4]
    exact ⟨rd_write_one hlt y, rd_write_one hlt y⟩
  · intro hv
    rw [hv] at h4
    simp only [Bool.false_eq_true, if_false] at h4
    refine ⟨?_, ?_⟩
    · rw [← arr_rd_prefix hpr hx]
      simp only [NDArray.map, NDArray.mk.injEq, true_and]
      refine List.map_congr_left fun a ha => rd_write_other ?_
      intro e he he'
      simp only [List.mem_singleton] at he
      subst he
      simp only at he'
      rw [he'] at h4
      exact absurd (hx _ ha) (not_lt.mpr h4)
    · intro ws hws
      refine rd_write_other ?_
      intro e he he'
      rw [← he'] at h4
      exact absurd (hx _ (hws e he)) (not_lt.mpr h4)

/-- **C67.**  Folding never aliases two entries of its result: if the argument's entries are different cells, so are the
folded entries, whatever `free` is. -/
theorem C67_no_internal_aliasing {p : Pattern} (hp : Pattern.Built p) {x : NDArray Addr} {free vv : Option Bool} {m : Mem}
    (hx : Allocated m x.data) (hn : x.data.Nodup) {r m'} (h : userFold p x free vv m = .ok (r, m')) :
    (leaves r).Nodup := by
  obtain ⟨hpr, g, hq, rfl, f, hf, hR⟩ := (userFold_ref hp.wf hx).ok h
  exact hR.nodup hn hx

/-- A dictionary of a plain vector and a `PatternArray`. -/
def exMem : Pattern :=
  .dict (.cons "a" (.numeric .vector [2] (.flt .ninf) (.flt .pinf) true none)
    (.cons "b" (.array [2] (.numeric .vector [1] (.flt .ninf) (.flt .pinf) true none) none) .nil)) true none

theorem exMem_built : Pattern.Built exMem := by
  refine Pattern.WF.built _ ?_
  simp [exMem, Pattern.WF, Pattern.WFEs, Entries.keys, Entries.toList, Pattern.isDict, Pattern.lock, PyNum.toFlt,
    Flt.NotNaN, Flt.lt]

/-- The C67 theorems are not vacuous: the first member of the folded dictionary consists of the argument's own cells
`0, 1`, the second of new cells `4, 5`; folding freely gives new cells throughout. -/
example : viewMask exMem = [true, true, false, false] ∧
    (∃ m', userFold exMem ⟨[4], [0, 1, 2, 3]⟩ (some false) (some false) [1, 2, 3, 4] =
      .ok (.dict [("a", .arr ⟨[2], [0, 1]⟩), ("b", .arr ⟨[2, 1], [4, 5]⟩)], m')) ∧
    (∃ m', userFold exMem ⟨[4], [0, 1, 2, 3]⟩ (some true) none [1, 2, 3, 4] =
      .ok (.dict [("a", .arr ⟨[2], [4, 5]⟩), ("b", .arr ⟨[2, 1], [8, 9]⟩)], m')) ∧
    (∃ m', userFlatten exMem (.dict [("a", .arr ⟨[2], [0, 1]⟩), ("b", .arr ⟨[2, 1], [2, 3]⟩)]) (some false) (some false)
      [1, 2, 3, 4] = .ok (⟨[4], [10, 11, 12, 13]⟩, m')) := by
  refine ⟨by simp [exMem, viewMask, viewMaskEs, Pattern.flatLen], ⟨_, rfl⟩, ⟨_, rfl⟩, ⟨_, rfl⟩⟩

end Paragami
