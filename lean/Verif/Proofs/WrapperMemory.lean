import Verif.Spec.WrapperMemory
import Verif.Proofs.MemoryTree
import Verif.Proofs.FunctionPatterns

/-!
# The memory-level wrappers refine the value-level ones, and what they pass on
-/

set_option linter.unusedSimpArgs false
set_option linter.unusedSectionVars false

namespace Paragami
namespace Memory
open Spec FunctionPatterns

variable {X : Type}

theorem argRead_prefix {m m' : Mem} (h : m <+: m') {a : MArg X} (ha : Allocated m (argCells a)) : argRead m' a = argRead m a := by
  cases a with
  | val v => simp only [argRead]; rw [val_rd_prefix h ha]
  | other x => rfl

theorem allocated_append {m : Mem} {l l' : List Addr} : Allocated m (l ++ l') ↔ Allocated m l ∧ Allocated m l' := by
  simp only [Allocated, List.mem_append]
  exact ⟨fun h => ⟨fun a ha => h a (.inl ha), fun a ha => h a (.inr ha)⟩, fun h a ha => ha.elim (h.1 a) (h.2 a)⟩

theorem cells_append (l l' : List (MArg X)) : cells (l ++ l') = cells l ++ cells l' := by simp [cells]
theorem cells_single (a : MArg X) : cells [a] = argCells a := by simp [cells]

theorem mem_cells {l : List (MArg X)} {c : Addr} : c ∈ cells l ↔ ∃ (j : Nat) (b : MArg X), l[j]? = some b ∧ c ∈ argCells b := by
  simp only [cells, List.mem_flatMap]
  constructor
  · rintro ⟨b, hb, hc⟩
    obtain ⟨j, hj⟩ := List.mem_iff_getElem?.mp hb
    exact ⟨j, b, hj, hc⟩
  · rintro ⟨j, b, hj, hc⟩
    exact ⟨b, List.mem_of_getElem? hj, hc⟩

theorem allocated_of_mem {m : Mem} {l : List (MArg X)} (h : Allocated m (cells l)) {b : MArg X} (hb : b ∈ l) :
    Allocated m (argCells b) := fun c hc => h c (List.mem_flatMap.mpr ⟨b, hb, hc⟩)

theorem argsRead_prefix {m m' : Mem} (h : m <+: m') {l : List (MArg X)} (ha : Allocated m (cells l)) :
    l.map (argRead m') = l.map (argRead m) :=
  List.map_congr_left fun _ hb => argRead_prefix h (allocated_of_mem ha hb)

theorem pySlice_sub {α : Type} {l : List α} {a b : ℤ} {x : α} (h : x ∈ pySlice l a b) : x ∈ l :=
  List.mem_of_mem_take (List.mem_of_mem_drop h)

theorem pySlice_map {α β : Type} (f : α → β) (l : List α) (a b : ℤ) : pySlice (l.map f) a b = (pySlice l a b).map f := by
  simp [pySlice, List.map_take, List.map_drop]

theorem pyGet_map {α β : Type} (f : α → β) (l : List α) (k : ℤ) : pyGet (l.map f) k = (pyGet l k).map f := by
  simp only [pyGet, List.length_map, List.getElem?_map]
  generalize (if k < 0 then k + (l.length : ℤ) else k) = j
  by_cases hj : j < 0
  · rw [if_pos hj, if_pos hj]; rfl
  · rw [if_neg hj, if_neg hj]
    cases l[j.toNat]? <;> rfl

theorem getElem?_pySlice {α : Type} {l : List α} {a b : ℤ} (ha : 0 ≤ a) (hb : 0 ≤ b) (hbl : b ≤ l.length) {x : α} :
    (∃ j : Nat, (pySlice l a b)[j]? = some x) ↔ ∃ j : Nat, a ≤ j ∧ (j : ℤ) < b ∧ l[j]? = some x := by
  have h1 : clip l.length a = min a.toNat l.length := by rw [clip, if_neg (by omega)]
  have h2 : clip l.length b = b.toNat := by rw [clip, if_neg (by omega)]; omega
  simp only [pySlice, h1, h2, List.getElem?_drop, List.getElem?_take]
  constructor
  · rintro ⟨j, hj⟩
    split at hj
    · rename_i hlt
      have hlen := (List.getElem?_eq_some_iff.mp hj).1
      exact ⟨_, by omega, by omega, hj⟩
    · cases hj
  · rintro ⟨j, h3, h4, h5⟩
    have hlen := (List.getElem?_eq_some_iff.mp h5).1
    refine ⟨j - min a.toNat l.length, ?_⟩
    have : min a.toNat l.length + (j - min a.toNat l.length) = j := by omega
    rw [this, if_pos (by omega)]
    exact h5

/-! ### One argument -/

/-- The cell `c` of the argument is part of the transformed argument. -/
def Out (folding : Bool) (p : Pattern) (fr : Option Bool) (a : MArg X) (c : Addr) : Prop :=
  folding = true ∧ ∃ (x : NDArray Addr) (i : Nat), a = .val (.arr x) ∧ Pattern.freeWithDefault p.freeDefault fr = .ok false ∧
    (viewMask p)[i]? = some true ∧ x.data[i]? = some c

/-- What is known about a transformed argument. -/
def ArgR (folding : Bool) (p : Pattern) (fr : Option Bool) (a : MArg X) (m : Mem) (v : MArg X) (m' : Mem) (g : Arg X) : Prop :=
  g = argRead m' v ∧ Allocated m' (argCells v) ∧ ∀ c < m.length, c ∈ argCells v ↔ Out folding p fr a c

theorem shares_mem {n : Nat} {bs : List Bool} {xs rs : List Addr} (h : Shares n bs xs rs) {c : Addr} (hc : c < n) :
    c ∈ rs ↔ ∃ i : Nat, bs[i]? = some true ∧ xs[i]? = some c := by
  obtain ⟨h1, h2, h3⟩ := Shares.get h
  constructor
  · intro hm
    obtain ⟨i, hi, rfl⟩ := List.mem_iff_getElem.mp hm
    have h4 := h3 i (by omega) (by omega) hi
    have hb : bs[i]'(by omega) = true := by
      by_contra hb
      rw [if_neg hb] at h4; exact absurd hc (not_lt.mpr h4)
    rw [if_pos hb] at h4
    exact ⟨i, by rw [List.getElem?_eq_getElem (by omega), hb], by rw [List.getElem?_eq_getElem (by omega), h4]⟩
  · rintro ⟨i, hb, hx⟩
    obtain ⟨hi, hb⟩ := List.getElem?_eq_some_iff.mp hb
    obtain ⟨hj, hx⟩ := List.getElem?_eq_some_iff.mp hx
    have h4 := h3 i hi hj (by omega)
    rw [if_pos hb, hx] at h4
    exact h4 ▸ List.getElem_mem (by omega)

theorem foldArg_ref {p : Pattern} (hp : p.WF) {fr : Option Bool} {a : MArg X} {m : Mem} (ha : Allocated m (argCells a)) :
    Ref (foldArg p fr a) (FunctionPatterns.foldArg p fr (argRead m a)) m (ArgR true p fr a m) := by
  match a, ha with
  | .val (.arr x), ha =>
    have hx : Allocated m x.data := ha
    refine Ref.bind (userFold_ref hp hx) ?_
    rintro v m1 g hm ⟨rfl, f, hf, hR⟩
    refine Ref.ret ⟨rfl, hR.alloc hm hx, fun c hc => ?_⟩
    cases f with
    | true =>
      refine iff_of_false (fun h => absurd hc (not_lt.mpr (hR.fresh rfl _ h))) ?_
      rintro ⟨-, y, i, -, h, -⟩
      rw [hf] at h; cases h
    | false =>
      rw [argCells, shares_mem (hR.shares rfl) hc]
      constructor
      · rintro ⟨i, h1, h2⟩; exact ⟨rfl, x, i, rfl, hf, h1, h2⟩
      · rintro ⟨-, y, i, h, -, h1, h2⟩
        cases h; exact ⟨i, h1, h2⟩
  | .val (.dict es), _ => exact Ref.error
  | .other x, _ => exact Ref.error

theorem flattenArg_ref {p : Pattern} {fr : Option Bool} {a : MArg X} {m : Mem} (ha : Allocated m (argCells a)) :
    Ref (flattenArg p fr a) (FunctionPatterns.flattenArg p fr (argRead m a)) m (ArgR false p fr a m) := by
  match a, ha with
  | .val v, ha =>
    refine Ref.bind (userFlatten_ref ha) ?_
    rintro r m1 g hm ⟨rfl, hf, hn⟩
    refine Ref.ret ⟨rfl, fun c hc => (hf c hc).2, fun c hc => iff_of_false (fun h => absurd hc (not_lt.mpr (hf c h).1)) ?_⟩
    rintro ⟨h, -⟩; cases h
  | .other x, _ => exact Ref.error

/-! ### The loops -/

/-- What is known about the result of a loop that started with `acc`. -/
def LoopR (folding : Bool) (args : List (MArg X)) (items : List (ℤ × Pattern × Option Bool)) (last : ℤ) (acc : List (MArg X)) (m : Mem)
    (new : List (MArg X)) (m' : Mem) (g : List (Arg X)) : Prop :=
  g = new.map (argRead m') ∧ Allocated m' (cells new) ∧
  (0 ≤ last → items.Pairwise (fun a b => a.1 < b.1) → (∀ it ∈ items, last ≤ it.1) → ∀ c < m.length, c ∈ cells new ↔
    c ∈ cells acc ∨ (∃ (j : Nat) (b : MArg X), args[j]? = some b ∧ last ≤ j ∧ (∀ it ∈ items, it.1 ≠ j) ∧ c ∈ argCells b) ∨
    ∃ it ∈ items, ∃ b, args[it.1.toNat]? = some b ∧ Out folding it.2.1 it.2.2 b c)

theorem loop_nil {folding : Bool} {args : List (MArg X)} {last : ℤ} {acc : List (MArg X)} {m : Mem}
    (ha : Allocated m (cells args)) (hacc : Allocated m (cells acc)) :
    LoopR folding args [] last acc m (acc ++ pySlice args last args.length) m
      (acc.map (argRead m) ++ pySlice (args.map (argRead m)) last (args.map (argRead m)).length) := by
  refine ⟨by rw [List.length_map, pySlice_map, List.map_append], ?_, fun hl _ _ c hc => ?_⟩
  · rw [cells_append, allocated_append]
    exact ⟨hacc, fun c hc => by
      obtain ⟨b, hb, hc⟩ := List.mem_flatMap.mp hc
      exact ha c (List.mem_flatMap.mpr ⟨b, pySlice_sub hb, hc⟩)⟩
  · rw [cells_append, List.mem_append, mem_cells (l := pySlice _ _ _)]
    refine or_congr_right ?_
    constructor
    · rintro ⟨j, b, hj, hc⟩
      obtain ⟨j', h1, h2, h3⟩ := (getElem?_pySlice hl (by omega) le_rfl).mp ⟨j, hj⟩
      exact .inl ⟨j', b, h3, h1, by simp, hc⟩
    · rintro (⟨j, b, h1, h2, -, hc⟩ | ⟨it, hit, -⟩)
      · have hlen := (List.getElem?_eq_some_iff.mp h1).1
        obtain ⟨j', hj'⟩ := (getElem?_pySlice hl (by omega) le_rfl).mpr ⟨j, h2, by exact_mod_cast hlen, h1⟩
        exact ⟨j', b, hj', hc⟩
      · cases hit

theorem loop_cons {folding : Bool} {args : List (MArg X)} {k : ℤ} {p : Pattern} {fr : Option Bool}
    {items : List (ℤ × Pattern × Option Bool)} {last : ℤ} {acc new : List (MArg X)} {m m1 m2 : Mem} {a v : MArg X} {g : List (Arg X)}
    {w : Arg X} (hget : pyGet args k = .ok a) (hm : m <+: m1) (hv : ArgR folding p fr a m v m1 w)
    (h : LoopR folding args items (k + 1) (acc ++ pySlice args last k ++ [v]) m1 new m2 g) :
    LoopR folding args ((k, p, fr) :: items) last acc m new m2 g := by
  obtain ⟨h1, h2, h3⟩ := h
  refine ⟨h1, h2, fun hl hs hk c hc => ?_⟩
  rw [List.pairwise_cons] at hs
  have hlk : last ≤ k := hk (k, p, fr) (by simp)
  have hk0 : 0 ≤ k := by omega
  obtain ⟨-, hlt, hat⟩ := pyGet_ok hget
  rw [pos_nonneg hk0] at hat
  rw [h3 (by omega) hs.2 (fun it hit => by have := hs.1 it hit; simp only at this; omega) c (lt_of_lt_of_le hc hm.length_le)]
  rw [cells_append, cells_append, cells_single, List.mem_append, List.mem_append, hv.2.2 c hc, mem_cells (l := pySlice _ _ _)]
  constructor
  · rintro (((hA | ⟨j, b, hj, hb⟩) | hO) | ⟨j, b, hj, hkj, hne, hb⟩ | ⟨it, hit, b, hb, hO⟩)
    · exact .inl hA
    · obtain ⟨j', e1, e2, e3⟩ := (getElem?_pySlice hl hk0 (by omega)).mp ⟨j, hj⟩
      refine .inr (.inl ⟨j', b, e3, e1, ?_, hb⟩)
      rintro it hit
      rcases List.mem_cons.mp hit with rfl | hit
      · simp only; omega
      · have := hs.1 it hit; simp only at this; omega
    · exact .inr (.inr ⟨(k, p, fr), by simp, a, hat, hO⟩)
    · refine .inr (.inl ⟨j, b, hj, by omega, ?_, hb⟩)
      intro it hit
      rcases List.mem_cons.mp hit with rfl | hit
      · simp only; omega
      · exact hne it hit
    · exact .inr (.inr ⟨it, List.mem_cons_of_mem _ hit, b, hb, hO⟩)
  · rintro (hA | ⟨j, b, hj, hlj, hne, hb⟩ | ⟨it, hit, b, hb, hO⟩)
    · exact .inl (.inl (.inl hA))
    · rcases lt_trichotomy (j : ℤ) k with hjk | hjk | hjk
      · obtain ⟨j', hj'⟩ := (getElem?_pySlice hl hk0 (by omega)).mpr ⟨j, hlj, hjk, hj⟩
        exact .inl (.inl (.inr ⟨j', b, hj', hb⟩))
      · exact absurd hjk.symm (hne (k, p, fr) (by simp))
      · exact .inr (.inl ⟨j, b, hj, by omega, fun it hit => hne it (List.mem_cons_of_mem _ hit), hb⟩)
    · rcases List.mem_cons.mp hit with rfl | hit
      · rw [hat] at hb; cases hb
        exact .inl (.inr hO)
      · exact .inr (.inr ⟨it, hit, b, hb, hO⟩)

section
variable {folding : Bool} {tr : Pattern → Option Bool → MArg X → MM (MArg X)} {trV : Pattern → Option Bool → Arg X → Except Err (Arg X)}
  {Good : Pattern → Prop}

theorem pyGet_mem {α : Type} {l : List α} {k : ℤ} {a : α} (h : pyGet l k = .ok a) : a ∈ l :=
  List.mem_of_getElem? (pyGet_ok h).2.2

theorem slice_allocated {m m' : Mem} (h : m <+: m') {args acc : List (MArg X)} {a b : ℤ} {v : MArg X} (ha : Allocated m (cells args))
    (hacc : Allocated m (cells acc)) (hv : Allocated m' (argCells v)) : Allocated m' (cells (acc ++ pySlice args a b ++ [v])) := by
  rw [cells_append, cells_append, cells_single, allocated_append, allocated_append]
  refine ⟨⟨Allocated.mono h hacc, fun c hc => ?_⟩, hv⟩
  obtain ⟨d, hd, hc⟩ := List.mem_flatMap.mp hc
  exact (Allocated.mono h ha) c (List.mem_flatMap.mpr ⟨d, pySlice_sub hd, hc⟩)

theorem step_read {m m' : Mem} (h : m <+: m') {args acc : List (MArg X)} {a b : ℤ} {v : MArg X} (ha : Allocated m (cells args))
    (hacc : Allocated m (cells acc)) : acc.map (argRead m) ++ pySlice (args.map (argRead m)) a b ++ [argRead m' v] =
      (acc ++ pySlice args a b ++ [v]).map (argRead m') := by
  rw [List.map_append, List.map_append, argsRead_prefix h hacc, ← pySlice_map, argsRead_prefix h ha]; rfl

theorem inputLoop_ref (htr : ∀ p fr a m, Good p → Allocated m (argCells a) → Ref (tr p fr a) (trV p fr (argRead m a)) m (ArgR folding p fr a m))
    {args : List (MArg X)} (items : List (ℤ × Pattern × Option Bool)) (hg : ∀ it ∈ items, Good it.2.1) :
    ∀ (last : ℤ) (acc : List (MArg X)) (m : Mem), Allocated m (cells args) → Allocated m (cells acc) →
      Ref (inputLoop tr args items last acc) (FunctionPatterns.inputLoop trV (args.map (argRead m)) items last (acc.map (argRead m))) m
        (LoopR folding args items last acc m) := by
  induction items with
  | nil => intro last acc m ha hacc; exact Ref.ret (loop_nil ha hacc)
  | cons it items ih =>
    obtain ⟨k, p, fr⟩ := it
    intro last acc m ha hacc
    rw [inputLoop, FunctionPatterns.inputLoop]
    refine Ref.bind (Ref.lift (f := argRead m) (R := fun b m' g => m' = m ∧ g = argRead m b ∧ pyGet args k = .ok b) (pyGet_map _ _ _)
      fun b hb => ⟨rfl, rfl, hb⟩) ?_
    rintro a m0 g - ⟨rfl, rfl, hget⟩
    refine Ref.bind (htr p fr a m0 (hg _ List.mem_cons_self) (allocated_of_mem ha (pyGet_mem hget))) ?_
    intro v m1 w hm hv
    have hr := ih (fun it hit => hg it (List.mem_cons_of_mem _ hit)) (k + 1) (acc ++ pySlice args last k ++ [v]) m1 (Allocated.mono hm ha)
      (slice_allocated hm ha hacc hv.2.1)
    rw [hv.1, step_read hm ha hacc, ← argsRead_prefix hm ha]
    exact hr.mono fun _ _ _ _ h => loop_cons hget hm hv h

theorem outputLoop_ref (htr : ∀ p fr a m, Good p → Allocated m (argCells a) → Ref (tr p fr a) (trV p fr (argRead m a)) m (ArgR folding p fr a m))
    {args : List (MArg X)} (named : Bool) (items : List (ℤ × Pattern × Option Bool)) (hg : ∀ it ∈ items, Good it.2.1) :
    ∀ (last : ℤ) (acc : List (MArg X)) (m : Mem), Allocated m (cells args) → Allocated m (cells acc) →
      Ref (outputLoop named tr args items last acc)
        (FunctionPatterns.outputLoop named trV (args.map (argRead m)) items last (acc.map (argRead m))) m
        (LoopR folding args items last acc m) := by
  induction items with
  | nil => intro last acc m ha hacc; exact Ref.ret (loop_nil ha hacc)
  | cons it items ih =>
    obtain ⟨k, p, fr⟩ := it
    intro last acc m ha hacc
    rw [outputLoop, FunctionPatterns.outputLoop]
    simp only [List.length_map]
    split
    · exact Ref.error
    · refine Ref.bind (Ref.lift (f := argRead m) (R := fun b m' g => m' = m ∧ g = argRead m b ∧ pyGet args k = .ok b) (pyGet_map _ _ _)
        fun b hb => ⟨rfl, rfl, hb⟩) ?_
      rintro a m0 g - ⟨rfl, rfl, hget⟩
      refine Ref.bind (htr p fr a m0 (hg _ List.mem_cons_self) (allocated_of_mem ha (pyGet_mem hget))) ?_
      intro v m1 w hm hv
      have hr := ih (fun it hit => hg it (List.mem_cons_of_mem _ hit)) (k + 1) (acc ++ pySlice args last k ++ [v]) m1 (Allocated.mono hm ha)
        (slice_allocated hm ha hacc hv.2.1)
      rw [hv.1, step_read hm ha hacc, ← argsRead_prefix hm ha]
      exact hr.mono fun _ _ _ _ h => loop_cons hget hm hv h

end

end Memory
end Paragami
