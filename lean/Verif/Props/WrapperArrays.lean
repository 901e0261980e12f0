import Verif.Proofs.WrapperArrays

/-!
# C137: writing into the arrays a function wrapper was made from
-/

namespace Paragami
namespace FunctionPatterns
open NDArray

variable {X : Type}

/-- **C137, no numpy arrays.**  A wrapper made from lists, tuples or single objects does for ever what it did when it was made, whatever is
written into them. -/
theorem C137_unshared {g : Given} (hg : g.Genuine) {flat : Bool} {w : Live} (h : makeLive g ⟨false, false, false⟩ flat = .ok w)
    (ws : List Write) : ∃ s, construct g.patterns g.free flat g.nums = .ok s ∧ ∀ (f : Fn X) args kw,
      w.callInput (ws.foldl Given.write g) f args kw = callInput s f args kw ∧
      w.callOutput (ws.foldl Given.write g) f args kw = callOutput s f args kw := by
  obtain ⟨s, hc, rfl⟩ := made_of h
  obtain ⟨-, rfl⟩ := construct_good hg hc
  refine ⟨_, hc, fun f args kw => ?_⟩
  have e : ∀ o g', Live.now ⟨o, g, ⟨false, false, false⟩, flat⟩ g' =
      ⟨g.patterns.data, broadcastData g.free [g.patterns.data.length], numList g.patterns.data.length g.nums, flat⟩ := fun o g' => by
    simp only [Live.now, Live.seen, numArray_data, Bool.false_eq_true, if_false]
  refine ⟨by rw [Live.callInput, Live.newArgs, e]; rfl, ?_⟩
  rw [Live.callOutput, callOutput, e]
  rfl

/-- **C137, positions in the old order.**  If the positions in the array are still in the order they were in, the wrapper does
what one made anew from the present contents of the arrays does, with the present patterns and the present values of `free`. -/
theorem C137_fresh {g : Given} (hg : g.Genuine) {sh : Shared} {flat : Bool} {w : Live} (h : makeLive g sh flat = .ok w) (ws : List Write)
    (hs : KeepsOrder g.positions (present sh g (ws.foldl Given.write g)).positions) :
    ∃ s, construct (present sh g (ws.foldl Given.write g)).patterns (present sh g (ws.foldl Given.write g)).free flat
        (present sh g (ws.foldl Given.write g)).nums = .ok s ∧ ∀ (f : Fn X) args kw,
      w.callInput (ws.foldl Given.write g) f args kw = callInput s f args kw ∧
      w.callOutput (ws.foldl Given.write g) f args kw = callOutput s f args kw := by
  rw [positions_eq, ← now_nums h] at hs
  obtain ⟨h1, -, h2⟩ := now_fresh hg h (alike_writes ws g) ((visit_pairwise hg h (alike_writes ws g)).2 hs)
  rw [seen_present h] at h1
  refine ⟨_, h1, fun f args kw => ⟨?_, ?_⟩⟩
  · rw [Live.callInput, Live.newArgs, h2]; rfl
  · rw [Live.callOutput, callOutput, h2]
    rfl

/-- **C137, patterns and `free`.**  What is written into the arrays of patterns and of `free` is therefore always seen as by a new wrapper. -/
theorem C137_values {g : Given} (hg : g.Genuine) {sh : Shared} {flat : Bool} {w : Live} (h : makeLive g sh flat = .ok w) (ws : List Write)
    (hn : ∀ x ∈ ws, ∀ i k, x ≠ .num i k) :
    ∃ s, construct (present sh g (ws.foldl Given.write g)).patterns (present sh g (ws.foldl Given.write g)).free flat g.nums = .ok s ∧
      ∀ (f : Fn X) args kw,
      w.callInput (ws.foldl Given.write g) f args kw = callInput s f args kw ∧
      w.callOutput (ws.foldl Given.write g) f args kw = callOutput s f args kw := by
  have hnum : (ws.foldl Given.write g).nums = g.nums := by
    clear h hg
    induction ws generalizing g with
    | nil => rfl
    | cons x ws ih =>
      rw [List.foldl_cons, ih fun y hy => hn y (List.mem_cons_of_mem _ hy)]
      cases x with
      | num i k => exact absurd rfl (hn _ List.mem_cons_self i k)
      | _ => rfl
  have hsn : (w.seen (ws.foldl Given.write g)).nums = g.nums := by
    obtain ⟨s, hc, rfl⟩ := made_of h
    simp only [Live.seen, hnum, ite_self]
  have := C137_fresh (X := X) hg h ws (by
    rw [positions_eq, ← now_nums h]
    exact (visit_pairwise hg h (alike_writes ws g)).1 (order_kept hg h (alike_writes ws g) hsn))
  rw [← seen_present h] at this ⊢
  rwa [hsn] at this

/-- **C137, positions in another order.**  The order of the positions is never computed again, nor are they checked again.  As long as they
are not negative, the wrapped function gets at least as many arguments as the wrapper, and exactly as many only if the positions are
in the order they were in (so that no two have become equal). -/
theorem C137_order {g : Given} (hg : g.Genuine) {sh : Shared} {flat : Bool} {w : Live} (h : makeLive g sh flat = .ok w) (ws : List Write)
    (h0 : ∀ k ∈ (present sh g (ws.foldl Given.write g)).positions, 0 ≤ k) {args new : List (Arg X)}
    (hR : w.newArgs (ws.foldl Given.write g) args = .ok new) : args.length ≤ new.length ∧
      (new.length = args.length ↔ KeepsOrder g.positions (present sh g (ws.foldl Given.write g)).positions) := by
  rw [← now_nums h] at h0 ⊢
  rw [positions_eq]
  have hpos := visit_nonneg h0 w.order
  obtain ⟨h1, h2⟩ := loop_length _ 0 [] new le_rfl (by omega) hpos hR
  simp only [List.length_nil, Int.toNat_zero, Nat.sub_zero, Nat.zero_add] at h1 h2
  exact ⟨h1, h2.trans (Iff.trans ⟨fun h => h.1, fun h => ⟨h, hpos⟩⟩ (visit_pairwise hg h (alike_writes ws g)))⟩

/-- **C137, positions in another order, results.**  The same for the values returned. -/
theorem C137_order_results {g : Given} (hg : g.Genuine) {sh : Shared} {flat : Bool} {w : Live} (h : makeLive g sh flat = .ok w) (ws : List Write)
    (h0 : ∀ k ∈ (present sh g (ws.foldl Given.write g)).positions, 0 ≤ k) {f : Fn X} {args rets new : List (Arg X)} {kw : Kwargs X}
    (hf : f.call args kw = .ok (.tuple rets)) (hR : w.callOutput (ws.foldl Given.write g) f args kw = .ok (.tuple new)) :
    rets.length ≤ new.length ∧
      (new.length = rets.length ↔ KeepsOrder g.positions (present sh g (ws.foldl Given.write g)).positions) := by
  rw [← now_nums h] at h0 ⊢
  rw [positions_eq]
  have hpos := visit_nonneg h0 w.order
  simp only [Live.callOutput, hf, bind, Except.bind] at hR
  split at hR
  · cases hR
  rename_i R hR'
  simp only [pure, Except.pure, Except.ok.injEq, Ret.tuple.injEq] at hR
  subst hR
  obtain ⟨h1, h2⟩ := loop_length _ 0 [] R le_rfl (by omega) hpos (input_of_output _ _ _ _ hR')
  simp only [List.length_nil, Int.toNat_zero, Nat.sub_zero, Nat.zero_add] at h1 h2
  exact ⟨h1, h2.trans (Iff.trans ⟨fun h => h.1, fun h => ⟨h, hpos⟩⟩ (visit_pairwise hg h (alike_writes ws g)))⟩

/-- **C137, two positions exchanged.**  A wrapper made with `argnums=np.array([0, 1])` for two arguments passes on four after the array has
been changed to `[1, 0]`: the first as it is, both transformed, and the second as it is. -/
theorem C137_exchanged {p q : Pattern} {fr : Option Bool} {sh : Shared} (hsh : sh.nums = true) {flat : Bool} :
    ∃ w, makeLive ⟨vec [p, q], ⟨[], [fr]⟩, some (vec [0, 1])⟩ sh flat = .ok w ∧
      ∀ (a b v u : Arg X), (if flat then flattenArg else foldArg) p fr b = .ok v → (if flat then flattenArg else foldArg) q fr a = .ok u →
        ∀ (f : Fn X) kw, w.callInput ([Write.num 0 1, .num 1 0].foldl Given.write ⟨vec [p, q], ⟨[], [fr]⟩, some (vec [0, 1])⟩) f [a, b] kw =
          f.call [a, v, u, b] kw := by
  obtain ⟨s1, s2, s3⟩ := sh
  cases hsh
  have hc : construct (vec [p, q]) ⟨[], [fr]⟩ flat (some (vec [0, 1])) = .ok ⟨[p, q], [fr, fr], [0, 1], flat⟩ := by rfl
  refine ⟨⟨[0, 1], ⟨vec [p, q], ⟨[], [fr]⟩, some (vec [0, 1])⟩, ⟨s1, s2, true⟩, flat⟩, ?_, fun a b v u hv hu f kw => ?_⟩
  · rw [makeLive, hc]
    have : argsort [0, 1] = [0, 1] := by simp [argsort, List.range, List.range.loop, List.mergeSort, List.MergeSort.Internal.splitInTwo]
    simp only [bind, Except.bind, pure, Except.pure, this]
  · have hn : Live.now ⟨[0, 1], ⟨vec [p, q], ⟨[], [fr]⟩, some (vec [0, 1])⟩, ⟨s1, s2, true⟩, flat⟩
        ([Write.num 0 1, .num 1 0].foldl Given.write ⟨vec [p, q], ⟨[], [fr]⟩, some (vec [0, 1])⟩) = ⟨[p, q], [fr, fr], [1, 0], flat⟩ := by
      cases s1 <;> cases s2 <;> rfl
    have hvis : Wrapper.visit ⟨[p, q], [fr, fr], [1, 0], flat⟩ [0, 1] = [(1, p, fr), (0, q, fr)] := rfl
    have e1 : pyGet [a, b] 1 = .ok b := rfl
    have e0 : pyGet [a, b] 0 = .ok a := rfl
    rw [Live.callInput, Live.newArgs, hn, hvis]
    simp only [inputLoop, e1, e0, bind, Except.bind, hv, hu]
    rfl

/-- C137 is not vacuous: `[0, 2]` changed to `[1, 2]` keeps the order, `[0, 1]` changed to `[1, 0]` or to `[1, 1]` does not. -/
example : KeepsOrder [0, 2] [1, 2] ∧ ¬ KeepsOrder [0, 1] [1, 0] ∧ ¬ KeepsOrder [0, 1] [1, 1] ∧
    Given.Genuine ⟨vec [.simplex 3 [] true none, .psd 2 (.int 0) true none], ⟨[], [some true]⟩, some (vec [0, 2])⟩ := by
  refine ⟨?_, fun h => ?_, fun h => ?_, ⟨rfl, rfl, fun a ha => by cases ha; rfl⟩⟩
  · intro i j a b a' b' h1 h2 h3 h4 h5
    match i, j with
    | 0, 0 => simp_all
    | 0, 1 => simp at h3 h4; omega
    | 1, 0 => simp at h1 h2; omega
    | 1, 1 => simp_all
    | (i + 2), j => simp at h1
    | 0, (j + 2) => simp at h2
    | 1, (j + 2) => simp at h2
  · have := h 0 1 0 1 1 0 rfl rfl rfl rfl (by norm_num)
    omega
  · have := h 0 1 0 1 1 1 rfl rfl rfl rfl (by norm_num)
    omega

end FunctionPatterns
end Paragami
