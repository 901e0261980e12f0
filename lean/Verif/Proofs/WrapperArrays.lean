import Verif.Spec.WrapperArrays
import Verif.Proofs.FunctionPatterns

/-!
# Function wrappers and the arrays they were made from
-/

namespace Paragami
namespace FunctionPatterns
open NDArray Pattern

/-- The same shapes. -/
structure Given.Alike (g g' : Given) : Prop where
  patterns : g'.patterns.shape = g.patterns.shape
  patternsLen : g'.patterns.data.length = g.patterns.data.length
  free : g'.free.shape = g.free.shape
  freeLen : g'.free.data.length = g.free.data.length
  nums : g'.nums.map (fun a => (a.shape, a.data.length)) = g.nums.map (fun a => (a.shape, a.data.length))

theorem Given.Alike.refl (g : Given) : g.Alike g := ⟨rfl, rfl, rfl, rfl, rfl⟩

theorem Given.Alike.trans {a b c : Given} (h : a.Alike b) (h' : b.Alike c) : a.Alike c :=
  ⟨h'.1.trans h.1, h'.2.trans h.2, h'.3.trans h.3, h'.4.trans h.4, h'.5.trans h.5⟩

theorem alike_write (g : Given) (w : Write) : g.Alike (g.write w) := by
  cases w with
  | pattern i p => exact ⟨rfl, List.length_set, rfl, rfl, rfl⟩
  | free i f => exact ⟨rfl, rfl, rfl, List.length_set, rfl⟩
  | num i k =>
    refine ⟨rfl, rfl, rfl, rfl, ?_⟩
    rw [Given.write, Option.map_map]
    congr 1
    funext a
    simp [put]

theorem alike_writes (ws : List Write) : ∀ g : Given, g.Alike (ws.foldl Given.write g) := by
  induction ws with
  | nil => exact .refl
  | cons w ws ih => exact fun g => (alike_write g w).trans (ih _)

theorem alike_seen {w : Live} {g : Given} (h : w.made.Alike g) : w.made.Alike (w.seen g) := by
  unfold Live.seen
  refine ⟨?_, ?_, ?_, ?_, ?_⟩ <;> dsimp only <;> split_ifs <;> first | rfl | exact h.1 | exact h.2 | exact h.3 | exact h.4 | exact h.5

theorem Given.Alike.genuine {g g' : Given} (h : g.Alike g') (hg : g.Genuine) : g'.Genuine := by
  refine ⟨?_, ?_, fun a ha => ?_⟩
  · have := hg.patterns; rw [NDArray.WF] at this ⊢; rw [h.patterns, h.patternsLen, this]
  · have := hg.free; rw [NDArray.WF] at this ⊢; rw [h.free, h.freeLen, this]
  · have e := h.nums
    rw [ha, Option.map_some] at e
    cases hn : g.nums with
    | none => rw [hn] at e; cases e
    | some b =>
      rw [hn] at e
      simp only [Option.map_some, Option.some.injEq, Prod.mk.injEq] at e
      have := hg.nums b hn
      rw [NDArray.WF] at this ⊢
      rw [e.1, e.2, this]

theorem made_of {g : Given} {sh : Shared} {flat : Bool} {w : Live} (h : makeLive g sh flat = .ok w) :
    ∃ s, construct g.patterns g.free flat g.nums = .ok s ∧ w = ⟨argsort s.nums, g, sh, flat⟩ := by
  rw [makeLive] at h
  obtain ⟨s, hs, h⟩ := bind_ok h
  cases h
  exact ⟨s, hs, rfl⟩

theorem numArray_data (n : Nat) (A : Option (NDArray ℤ)) : (numArray n A).data = numList n A := by cases A <;> rfl

theorem construct_good {g : Given} (hg : g.Genuine) {flat : Bool} {s : Wrapper} (h : construct g.patterns g.free flat g.nums = .ok s) :
    Spec.GoodArguments g.patterns g.free g.nums ∧
      s = ⟨g.patterns.data, broadcastData g.free [g.patterns.data.length], numList g.patterns.data.length g.nums, flat⟩ := by
  obtain ⟨h1, h2⟩ := construct_iff (F := g.free) (flat := flat) hg.patterns hg.nums
  by_cases hG : Spec.GoodArguments g.patterns g.free g.nums
  · rw [h1 hG] at h; cases h; exact ⟨hG, rfl⟩
  · obtain ⟨m, e⟩ := h2 hG; rw [e] at h; cases h

theorem visit_eq (s : Wrapper) (order : List Nat) : s.visit order = order.filterMap fun i => s.items[i]? := by
  simp only [getElem?_items, Wrapper.visit]

theorem visit_argsort (s : Wrapper) : s.visit (argsort s.nums) = s.sorted := rfl

/-- In terms of what is seen, everything but the order of the positions is as if made anew. -/
theorem now_fresh {g : Given} (hg : g.Genuine) {sh : Shared} {flat : Bool} {w : Live} (h : makeLive g sh flat = .ok w) {g' : Given} (ha : g.Alike g')
    (hs : ((w.now g').visit w.order).Pairwise fun a b => a.1 < b.1) :
    construct (w.seen g').patterns (w.seen g').free flat (w.seen g').nums = .ok (w.now g') ∧ (w.now g').Ok ∧
      (w.now g').visit w.order = (w.now g').sorted := by
  obtain ⟨s, hc, rfl⟩ := made_of h
  obtain ⟨hG, rfl⟩ := construct_good hg hc
  generalize hw : (⟨argsort _, g, sh, flat⟩ : Live) = w at *
  have hm : w.made = g := by rw [← hw]
  have hfl : w.originalIsFlat = flat := by rw [← hw]
  have hal : g.Alike (w.seen g') := by rw [← hm]; exact alike_seen (by rw [hm]; exact ha)
  have hgen := hal.genuine hg
  rw [good_iff] at hG
  obtain ⟨⟨hp1, hn1⟩, hF, hnd, hlen⟩ := hG
  have hl0 : (numList (w.seen g').patterns.data.length (w.seen g').nums).length = (numList g.patterns.data.length g.nums).length := by
    have e := hal.nums
    cases h1 : g.nums with
    | none =>
      cases h2 : (w.seen g').nums with
      | none => simp [numList, hal.patternsLen]
      | some b => rw [h1, h2] at e; cases e
    | some a =>
      cases h2 : (w.seen g').nums with
      | none => rw [h1, h2] at e; cases e
      | some b =>
        rw [h1, h2] at e
        simp only [Option.map_some, Option.some.injEq, Prod.mk.injEq] at e
        exact e.2
  have hlen' : (numList (w.seen g').patterns.data.length (w.seen g').nums).length = (w.seen g').patterns.data.length := by
    rw [hl0, hlen, hal.patternsLen]
  have hF' : (w.seen g').free.shape = [] ∨ (w.seen g').free.shape = [1] ∨ (w.seen g').free.shape = [(w.seen g').patterns.data.length] := by
    rw [hal.free, hal.patternsLen]; exact hF
  have hlF := (broadcastData_vec hgen.free hF').1
  have hnow : w.now g' = ⟨(w.seen g').patterns.data, broadcastData (w.seen g').free [(w.seen g').patterns.data.length],
      numList (w.seen g').patterns.data.length (w.seen g').nums, flat⟩ := by
    rw [Live.now, numArray_data, hfl]
  have hli : (w.now g').items.length = (w.seen g').patterns.data.length := by
    rw [hnow]; simp only [Wrapper.items, List.length_zip]; omega
  have hmap : (w.now g').items.map (·.1) = numList (w.seen g').patterns.data.length (w.seen g').nums := by
    rw [hnow, Wrapper.items, List.map_fst_zip]
    simp only [List.length_zip]; omega
  have hord : w.order.Perm (List.range (w.now g').items.length) := by
    rw [hli, hal.patternsLen, ← hlen, ← hw, argsort]
    exact List.mergeSort_perm _ _
  have hperm : ((w.now g').visit w.order).Perm (w.now g').items := by
    rw [visit_eq]
    refine (hord.filterMap _).trans ?_
    rw [filterMap_range]
  have hnd' : (numList (w.seen g').patterns.data.length (w.seen g').nums).Nodup := by
    rw [← hmap, ← (hperm.map _).nodup_iff, List.nodup_iff_pairwise_ne, List.pairwise_map]
    exact hs.imp fun h => ne_of_lt h
  have hG' : Spec.GoodArguments (w.seen g').patterns (w.seen g').free (w.seen g').nums := by
    rw [good_iff]
    refine ⟨⟨?_, fun b hb => ?_⟩, hF', hnd', hlen'⟩
    · rw [NDArray.ndim, hal.patterns]; exact hp1
    · have e := hal.nums
      rw [hb] at e
      cases h1 : g.nums with
      | none => rw [h1] at e; cases e
      | some a =>
        rw [h1] at e
        simp only [Option.map_some, Option.some.injEq, Prod.mk.injEq] at e
        rw [NDArray.ndim, e.1]
        exact hn1 a h1
  have hok : (w.now g').Ok := by
    rw [hnow]
    exact ⟨hlen', hlF, hnd'⟩
  refine ⟨?_, hok, ?_⟩
  · rw [(construct_iff hgen.patterns hgen.nums).1 hG', hnow]
  · exact List.Perm.eq_of_pairwise (fun _ _ _ _ h1 h2 => absurd h1 (not_lt.mpr h2.le)) hs (sorted_sorted hok)
      (hperm.trans (sorted_perm hok).symm)

theorem pairwise_cases {α : Type} {R : α → α → Prop} {l : List α} (h : l.Pairwise R) {a b : α} (ha : a ∈ l) (hb : b ∈ l) : a = b ∨ R a b ∨ R b a := by
  induction h with
  | nil => cases ha
  | @cons x l hx _ ih =>
    rcases List.mem_cons.1 ha with rfl | ha' <;> rcases List.mem_cons.1 hb with rfl | hb'
    · exact .inl rfl
    · exact .inr (.inl (hx _ hb'))
    · exact .inr (.inr (hx _ ha'))
    · exact ih ha' hb'

/-- As long as the positions are as they were, so is their order. -/
theorem order_kept {g : Given} (hg : g.Genuine) {sh : Shared} {flat : Bool} {w : Live} (h : makeLive g sh flat = .ok w) {g' : Given} (ha : g.Alike g')
    (hn : (w.seen g').nums = g.nums) : ((w.now g').visit w.order).Pairwise fun a b => a.1 < b.1 := by
  obtain ⟨s, hc, rfl⟩ := made_of h
  obtain ⟨hG, rfl⟩ := construct_good hg hc
  generalize hw : (⟨argsort _, g, sh, flat⟩ : Live) = w at *
  have hm : w.made = g := by rw [← hw]
  have hal : g.Alike (w.seen g') := by rw [← hm]; exact alike_seen (by rw [hm]; exact ha)
  have hgen := hal.genuine hg
  rw [good_iff] at hG
  obtain ⟨-, hF, hnd, hlen⟩ := hG
  have hF' : (w.seen g').free.shape = [] ∨ (w.seen g').free.shape = [1] ∨ (w.seen g').free.shape = [(w.seen g').patterns.data.length] := by
    rw [hal.free, hal.patternsLen]; exact hF
  have hlF := (broadcastData_vec hgen.free hF').1
  have hnums : (w.now g').nums = numList g.patterns.data.length g.nums := by
    show (numArray (w.seen g').patterns.data.length (w.seen g').nums).data = _
    rw [numArray_data, hn, hal.patternsLen]
  have hord : w.order = argsort (w.now g').nums := by rw [hnums, ← hw]
  have hok : (w.now g').Ok := by
    refine ⟨?_, hlF, ?_⟩
    · rw [hnums, hlen]; exact hal.patternsLen.symm
    · rw [hnums]; exact hnd
  rw [hord, visit_argsort]
  exact sorted_sorted hok

/-- In the order found when the wrapper was made, the positions increase exactly if they kept their order. -/
theorem visit_pairwise {g : Given} (hg : g.Genuine) {sh : Shared} {flat : Bool} {w : Live} (h : makeLive g sh flat = .ok w) {g' : Given}
    (ha : g.Alike g') : (((w.now g').visit w.order).Pairwise fun a b => a.1 < b.1) ↔
      KeepsOrder (numArray g.patterns.data.length g.nums).data (w.now g').nums := by
  have hold := order_kept hg h (.refl g) (by
    obtain ⟨s, hc, rfl⟩ := made_of h
    simp only [Live.seen, ite_self])
  have hfr := now_fresh hg h (.refl g) hold
  have hlen : (w.now g').nums.length = (w.now g').patterns.length ∧ (w.now g').free.length = (w.now g').patterns.length ∧
      (w.now g').patterns.length = (w.now g).patterns.length := by
    obtain ⟨s, hc, rfl⟩ := made_of h
    obtain ⟨hG, rfl⟩ := construct_good hg hc
    generalize hw : (⟨argsort _, g, sh, flat⟩ : Live) = w at *
    have hm : w.made = g := by rw [← hw]
    have hal : g.Alike (w.seen g') := by rw [← hm]; exact alike_seen (by rw [hm]; exact ha)
    have hal0 : g.Alike (w.seen g) := by rw [← hm]; exact alike_seen (by rw [hm]; exact .refl g)
    have hgen := hal.genuine hg
    rw [good_iff] at hG
    obtain ⟨-, hF, -, hlen⟩ := hG
    have hF' : (w.seen g').free.shape = [] ∨ (w.seen g').free.shape = [1] ∨ (w.seen g').free.shape = [(w.seen g').patterns.data.length] := by
      rw [hal.free, hal.patternsLen]; exact hF
    refine ⟨?_, (broadcastData_vec hgen.free hF').1, hal.patternsLen.trans hal0.patternsLen.symm⟩
    show (numArray (w.seen g').patterns.data.length (w.seen g').nums).data.length = (w.seen g').patterns.data.length
    rw [numArray_data]
    have e := hal.nums
    cases h1 : g.nums with
    | none =>
      cases h2 : (w.seen g').nums with
      | none => simp [numList]
      | some b => rw [h1, h2] at e; cases e
    | some a =>
      cases h2 : (w.seen g').nums with
      | none => rw [h1, h2] at e; cases e
      | some b =>
        rw [h1, h2] at e
        simp only [Option.map_some, Option.some.injEq, Prod.mk.injEq] at e
        rw [h1] at hlen
        rw [hal.patternsLen, ← hlen]
        exact e.2
  have hnow0 : (w.now g).nums = (numArray g.patterns.data.length g.nums).data := by
    obtain ⟨s, hc, rfl⟩ := made_of h
    simp only [Live.now, Live.seen, ite_self]
  have hord : w.order.Perm (List.range (w.now g).nums.length) := by
    obtain ⟨s, hc, rfl⟩ := made_of h
    obtain ⟨hG, rfl⟩ := construct_good hg hc
    rw [hnow0, numArray_data]
    exact List.mergeSort_perm _ _
  rw [← hnow0]
  have hfst : ∀ {s : Wrapper} (_ : s.nums.length = s.patterns.length) (_ : s.free.length = s.patterns.length) (i : Nat) (b : ℤ × Pattern × Option Bool),
      s.items[i]? = some b → s.nums[i]? = some b.1 := fun {s} h1 h2 i b hb => by
    have : s.items.map (·.1) = s.nums := by rw [Wrapper.items, List.map_fst_zip]; simp [h1, h2]
    have := congrArg (fun l : List ℤ => l[i]?) this
    simpa only [List.getElem?_map, hb, Option.map_some] using this.symm
  have hex : ∀ {s : Wrapper} (_ : s.nums.length = s.patterns.length) (_ : s.free.length = s.patterns.length) (i : Nat) (k : ℤ),
      s.nums[i]? = some k → ∃ b, s.items[i]? = some b ∧ b.1 = k := fun {s} h1 h2 i k hk => by
    have hi : i < s.nums.length := (List.getElem?_eq_some_iff.1 hk).1
    have hi' : i < s.items.length := by simp only [Wrapper.items, List.length_zip]; omega
    have e := List.getElem?_eq_getElem hi'
    refine ⟨_, e, ?_⟩
    have := hfst h1 h2 i _ e
    rw [hk] at this
    exact (Option.some.inj this).symm
  rw [visit_eq, List.pairwise_filterMap] at hold ⊢
  have hok := hfr.2.1
  constructor
  · intro hnew i j a b a' b' hi hj hi' hj' hab
    have hi0 : i ∈ w.order := hord.mem_iff.2 (List.mem_range.2 (List.getElem?_eq_some_iff.1 hi).1)
    have hj0 : j ∈ w.order := hord.mem_iff.2 (List.mem_range.2 (List.getElem?_eq_some_iff.1 hj).1)
    obtain ⟨x, hx, rfl⟩ := hex hok.lenP hok.lenF i a hi
    obtain ⟨y, hy, rfl⟩ := hex hok.lenP hok.lenF j b hj
    obtain ⟨x', hx', rfl⟩ := hex hlen.1 hlen.2.1 i a' hi'
    obtain ⟨y', hy', rfl⟩ := hex hlen.1 hlen.2.1 j b' hj'
    rcases pairwise_cases (hold.and hnew) hi0 hj0 with e | e | e
    · subst e; rw [hx] at hy; cases hy; exact absurd hab (lt_irrefl _)
    · exact e.2 x' hx' y' hy'
    · exact absurd (e.1 y hy x hx) (not_lt.2 hab.le)
  · intro hk
    refine hold.imp_of_mem fun {i j} hi hj hlt b hb b' hb' => ?_
    have hi0 := List.mem_range.1 (hord.mem_iff.1 hi)
    have hj0 := List.mem_range.1 (hord.mem_iff.1 hj)
    obtain ⟨x, hx, ex⟩ := hex hok.lenP hok.lenF i _ (List.getElem?_eq_getElem hi0)
    obtain ⟨y, hy, ey⟩ := hex hok.lenP hok.lenF j _ (List.getElem?_eq_getElem hj0)
    exact hk i j x.1 y.1 b.1 b'.1 (hfst hok.lenP hok.lenF i x hx) (hfst hok.lenP hok.lenF j y hy) (hfst hlen.1 hlen.2.1 i b hb)
      (hfst hlen.1 hlen.2.1 j b' hb') (hlt x hx y hy)

theorem seen_present {g : Given} {sh : Shared} {flat : Bool} {w : Live} (h : makeLive g sh flat = .ok w) (g' : Given) : w.seen g' = present sh g g' := by
  obtain ⟨s, -, rfl⟩ := made_of h
  rfl

theorem positions_eq (g : Given) : g.positions = (numArray g.patterns.data.length g.nums).data := by
  rw [Given.positions]
  cases g.nums <;> rfl

theorem now_nums {g : Given} {sh : Shared} {flat : Bool} {w : Live} (h : makeLive g sh flat = .ok w) (g' : Given) :
    (w.now g').nums = (present sh g g').positions := by
  rw [positions_eq, ← seen_present h]; rfl

theorem visit_nonneg {s : Wrapper} (h : ∀ k ∈ s.nums, 0 ≤ k) (order : List Nat) : ∀ it ∈ s.visit order, 0 ≤ it.1 := by
  intro it hit
  rw [visit_eq, List.mem_filterMap] at hit
  obtain ⟨i, -, hi⟩ := hit
  have := List.mem_of_getElem? hi
  exact h _ (List.of_mem_zip this).1

section
variable {X : Type}

theorem clip_nonneg {n : Nat} {k : ℤ} (h0 : 0 ≤ k) (hn : k ≤ n) : clip n k = k.toNat := by
  unfold clip; split_ifs <;> omega

/-- How long the list of new arguments is. -/
theorem loop_length {tr : Pattern → Option Bool → Arg X → Except Err (Arg X)} {args : List (Arg X)} :
    ∀ (items : List (ℤ × Pattern × Option Bool)) (last : ℤ) (acc R : List (Arg X)), 0 ≤ last → last ≤ args.length → (∀ it ∈ items, 0 ≤ it.1) →
      inputLoop tr args items last acc = .ok R → acc.length + (args.length - last.toNat) ≤ R.length ∧
        (R.length = acc.length + (args.length - last.toNat) ↔ (items.Pairwise fun a b => a.1 < b.1) ∧ ∀ it ∈ items, last ≤ it.1)
  | [], last, acc, R, h0, h1, _, h => by
    rw [inputLoop] at h
    cases h
    have : (pySlice args last args.length).length = args.length - last.toNat := by
      rw [pySlice, List.length_drop, List.length_take, clip_nonneg h0 h1, clip_nonneg (by omega) le_rfl]
      omega
    rw [List.length_append, this]
    simp
  | (k, p, f) :: items, last, acc, R, h0, h1, hi, h => by
    rw [inputLoop] at h
    obtain ⟨a, ha, h⟩ := bind_ok h
    obtain ⟨v, hv, h⟩ := bind_ok h
    have hk : 0 ≤ k := hi _ List.mem_cons_self
    have hlt := (pyGet_ok ha).2.1
    have hsl : (pySlice args last k).length = k.toNat - last.toNat := by
      rw [pySlice, List.length_drop, List.length_take, clip_nonneg h0 h1, clip_nonneg hk hlt.le]
      omega
    obtain ⟨h2, h3⟩ := loop_length items (k + 1) _ R (by omega) (by omega) (fun it hit => hi it (List.mem_cons_of_mem _ hit)) h
    simp only [List.length_append, hsl, List.length_singleton] at h2 h3
    refine ⟨by omega, ?_⟩
    rw [List.pairwise_cons]
    constructor
    · intro e
      obtain ⟨h4, h5⟩ := h3.1 (by omega)
      refine ⟨⟨fun b hb => by have := h5 b hb; show k < b.1; omega, h4⟩, fun it hit => ?_⟩
      rcases List.mem_cons.1 hit with rfl | hit
      · show last ≤ k; omega
      · have := h5 it hit; omega
    · rintro ⟨⟨h4, h5⟩, h6⟩
      have h7 : last ≤ k := h6 _ List.mem_cons_self
      have := h3.2 ⟨h5, fun it hit => by have : k < it.1 := h4 it hit; omega⟩
      omega

theorem input_of_output {tr : Pattern → Option Bool → Arg X → Except Err (Arg X)} {named : Bool} {rets : List (Arg X)} :
    ∀ (items : List (ℤ × Pattern × Option Bool)) (last : ℤ) (acc R : List (Arg X)),
      outputLoop named tr rets items last acc = .ok R → inputLoop tr rets items last acc = .ok R
  | [], last, acc, R, h => by rw [outputLoop] at h; rw [inputLoop]; exact h
  | (k, p, f) :: items, last, acc, R, h => by
    rw [outputLoop] at h
    split_ifs at h
    · simp [bind, Except.bind, throw, throwThe, MonadExceptOf.throw] at h
    · simp only [bind, Except.bind] at h
      rw [inputLoop]
      cases ha : pyGet rets k with
      | error e => rw [ha] at h; cases h
      | ok a =>
        rw [ha] at h
        simp only at h
        cases hv : tr p f a with
        | error e => rw [hv] at h; cases h
        | ok v =>
          rw [hv] at h
          simp only [bind, Except.bind, hv]
          exact input_of_output items _ _ R h

end

end FunctionPatterns
end Paragami
