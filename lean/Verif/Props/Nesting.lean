import Verif.Props.FunctionPatterns

/-! # C86: wrapping a function several times -/

namespace Paragami
open NDArray Pattern FunctionPatterns

variable {X : Type}

/-- Replacing at some positions, and then at others, is replacing at all of them. -/
theorem replaced_trans {tr : Pattern → Option Bool → Arg X → Except Err (Arg X)} {s t u : Wrapper} (ht : Spec.Constructed t)
    (hs : Spec.Constructed s)
    (hd : ∀ k ∈ s.nums, k ∉ t.nums) (hT : ∀ k p fr, Spec.Targets u k p fr ↔ Spec.Targets s k p fr ∨ Spec.Targets t k p fr)
    {a b c : List (Arg X)} (h1 : Spec.Replaced tr t a b) (h2 : Spec.Replaced tr s b c) : Spec.Replaced tr u a c := by
  refine ⟨h2.1.trans h1.1, fun k p fr hk => ?_, fun j hj => ?_⟩
  · rcases (hT k p fr).mp hk with hk | hk
    · obtain ⟨x, v, h0, hx, hv, hc⟩ := h2.2.1 k p fr hk
      refine ⟨x, v, h0, ?_, hv, hc⟩
      rw [← h1.2.2 k.toNat (by rw [Int.toNat_of_nonneg h0]; exact hd k (target_mem hk)), hx]
    · obtain ⟨x, v, h0, hx, hv, hb⟩ := h1.2.1 k p fr hk
      refine ⟨x, v, h0, hx, hv, ?_⟩
      rw [h2.2.2 k.toNat (by rw [Int.toNat_of_nonneg h0]; exact fun h => hd k h (target_mem hk)), hb]
  · have hn : ∀ w : Wrapper, Spec.Constructed w → (∀ k p fr, Spec.Targets w k p fr → Spec.Targets u k p fr) → (j : ℤ) ∉ w.nums := by
      intro w hw h hmem
      obtain ⟨p, fr, hk⟩ := exists_target (constructed_ok hw) hmem
      exact hj (target_mem (h _ _ _ hk))
    rw [h2.2.2 j (hn s hs fun k p fr h => (hT k p fr).mpr (.inl h)), h1.2.2 j (hn t ht fun k p fr h => (hT k p fr).mpr (.inr h))]

/-- All named positions of `args` are there and can be transformed. -/
def Transformable (tr : Pattern → Option Bool → Arg X → Except Err (Arg X)) (s : Wrapper) (args : List (Arg X)) : Prop :=
  ∀ k p fr, Spec.Targets s k p fr → ∃ a v, args[k.toNat]? = some a ∧ tr p fr a = .ok v

/-- A wrapper for outputs either raises or has transformed all that it was to transform. -/
theorem output_only_if {s : Wrapper} (hs : Spec.Constructed s) (h0 : ∀ k ∈ s.nums, 0 ≤ k) {f : Fn X} {args rets : List (Arg X)} {kw : Kwargs X}
    (hf : f.call args kw = .ok (.tuple rets)) :
    (∃ e, callOutput s f args kw = .error e) ∨ Transformable (Spec.outputTr s) s rets := by
  have hok := constructed_ok hs
  simp only [callOutput, hf, bind, Except.bind, transformRet, outputTr_eq]
  cases hR : outputLoop f.named (Spec.outputTr s) rets s.sorted 0 [] with
  | error e => exact .inl ⟨e, rfl⟩
  | ok R =>
    right
    rw [outputLoop_eq _ _ _ _ (outputLoop_imp _ _ _ _ _ hR)] at hR
    intro k p fr hk
    obtain ⟨a, v, ha, hv⟩ := loop_imp hok hR hk
    obtain ⟨-, -, h3⟩ := pyGet_ok ha
    rw [pos_nonneg (h0 k (target_mem hk))] at h3
    exact ⟨a, v, h3, hv⟩

section
variable {s t u : Wrapper} (hs : Spec.Constructed s) (ht : Spec.Constructed t) (hu : Spec.Constructed u)
  (hfs : s.originalIsFlat = u.originalIsFlat) (hft : t.originalIsFlat = u.originalIsFlat)
  (hd : ∀ k ∈ s.nums, k ∉ t.nums) (hT : ∀ k p fr, Spec.Targets u k p fr ↔ Spec.Targets s k p fr ∨ Spec.Targets t k p fr)
  (h0 : ∀ k ∈ u.nums, 0 ≤ k)
include hs ht hu hfs hft hd hT h0

theorem nested_input (args : List (Arg X)) :
    (Transformable (Spec.inputTr u) u args → ∀ (f : Fn X) kw, callInput t (wrapInput s f) args kw = callInput u f args kw) ∧
    (¬ Transformable (Spec.inputTr u) u args →
      (∃ e, ∀ (f : Fn X) kw, callInput u f args kw = .error e) ∧ ∃ e, ∀ (f : Fn X) kw, callInput t (wrapInput s f) args kw = .error e) := by
  have hs0 : ∀ k ∈ s.nums, 0 ≤ k := fun k hk => by
    obtain ⟨p, fr, h⟩ := exists_target (constructed_ok hs) hk
    exact h0 k (target_mem ((hT k p fr).mpr (.inl h)))
  have ht0 : ∀ k ∈ t.nums, 0 ≤ k := fun k hk => by
    obtain ⟨p, fr, h⟩ := exists_target (constructed_ok ht) hk
    exact h0 k (target_mem ((hT k p fr).mpr (.inr h)))
  have es : Spec.inputTr (X := X) s = Spec.inputTr u := by rw [Spec.inputTr, Spec.inputTr, hfs]
  have et : Spec.inputTr (X := X) t = Spec.inputTr u := by rw [Spec.inputTr, Spec.inputTr, hft]
  have step : ∀ b, Spec.Replaced (Spec.inputTr u) t args b → ∀ k ∈ s.nums, b[k.toNat]? = args[k.toNat]? := fun b hb k hk =>
    hb.2.2 k.toNat (by rw [Int.toNat_of_nonneg (hs0 k hk)]; exact hd k hk)
  constructor
  · intro h f kw
    obtain ⟨b, h1, e1⟩ := C46_call ht ht0 (args := args) (by rw [et]; exact fun k p fr hk => h k p fr ((hT k p fr).mpr (.inr hk)))
    rw [et] at h1
    obtain ⟨c, h2, e2⟩ := C46_call hs hs0 (args := b) (by
      rw [es]; intro k p fr hk
      rw [step b h1 k (target_mem hk)]
      exact h k p fr ((hT k p fr).mpr (.inl hk)))
    rw [es] at h2
    obtain ⟨c', h3, e3⟩ := C46_call hu h0 (args := args) h
    rw [e1, e3, ← C46_unique hu (replaced_trans ht hs hd hT h1 h2) h3]
    exact e2 f kw
  · intro hn
    refine ⟨(C46_only_if hu h0).resolve_right hn, ?_⟩
    rcases C46_only_if ht ht0 (args := args) with ⟨e, he⟩ | h
    · exact ⟨e, fun f kw => he _ _⟩
    · obtain ⟨b, h1, e1⟩ := C46_call ht ht0 h
      rcases C46_only_if hs hs0 (args := b) with ⟨e, he⟩ | h'
      · exact ⟨e, fun f kw => by rw [e1]; exact he f kw⟩
      · refine absurd (fun k p fr hk => ?_) hn
        rcases (hT k p fr).mp hk with hk | hk
        · rw [← step b (et ▸ h1) k (target_mem hk), ← es]; exact h' k p fr hk
        · rw [← et]; exact h k p fr hk

theorem nested_output {f : Fn X} {args rets : List (Arg X)} {kw : Kwargs X} (hf : f.call args kw = .ok (.tuple rets))
    (h : Transformable (Spec.outputTr u) u rets) : callOutput t (wrapOutput s f) args kw = callOutput u f args kw := by
  have hs0 : ∀ k ∈ s.nums, 0 ≤ k := fun k hk => by
    obtain ⟨p, fr, h⟩ := exists_target (constructed_ok hs) hk
    exact h0 k (target_mem ((hT k p fr).mpr (.inl h)))
  have ht0 : ∀ k ∈ t.nums, 0 ≤ k := fun k hk => by
    obtain ⟨p, fr, h⟩ := exists_target (constructed_ok ht) hk
    exact h0 k (target_mem ((hT k p fr).mpr (.inr h)))
  have es : Spec.outputTr (X := X) s = Spec.outputTr u := by rw [Spec.outputTr, Spec.outputTr, hfs]
  have et : Spec.outputTr (X := X) t = Spec.outputTr u := by rw [Spec.outputTr, Spec.outputTr, hft]
  obtain ⟨b, e1, h1⟩ := C49_tuple hs hs0 hf (by rw [es]; exact fun k p fr hk => h k p fr ((hT k p fr).mpr (.inl hk)))
  rw [es] at h1
  obtain ⟨c, e2, h2⟩ := C49_tuple ht ht0 (f := wrapOutput s f) (args := args) (kw := kw) (rets := b) e1 (by
    rw [et]; intro k p fr hk
    rw [h1.2.2 k.toNat (by rw [Int.toNat_of_nonneg (ht0 k (target_mem hk))]; exact fun h => hd k h (target_mem hk))]
    exact h k p fr ((hT k p fr).mpr (.inr hk)))
  rw [et] at h2
  obtain ⟨c', e3, h3⟩ := C49_tuple hu h0 hf h
  rw [e2, e3]
  have := replaced_trans hs ht (fun k hk hk' => hd k hk' hk) (fun k p fr => (hT k p fr).trans or_comm) h1 h2
  rw [replaced_unique (constructed_ok hu) this h3]

theorem nested_output_error {f : Fn X} {args rets : List (Arg X)} {kw : Kwargs X} (hf : f.call args kw = .ok (.tuple rets))
    (h : ¬ Transformable (Spec.outputTr u) u rets) :
    (∃ e, callOutput t (wrapOutput s f) args kw = .error e) ∧ ∃ e, callOutput u f args kw = .error e := by
  have hs0 : ∀ k ∈ s.nums, 0 ≤ k := fun k hk => by
    obtain ⟨p, fr, h⟩ := exists_target (constructed_ok hs) hk
    exact h0 k (target_mem ((hT k p fr).mpr (.inl h)))
  have ht0 : ∀ k ∈ t.nums, 0 ≤ k := fun k hk => by
    obtain ⟨p, fr, h⟩ := exists_target (constructed_ok ht) hk
    exact h0 k (target_mem ((hT k p fr).mpr (.inr h)))
  have es : Spec.outputTr (X := X) s = Spec.outputTr u := by rw [Spec.outputTr, Spec.outputTr, hfs]
  have et : Spec.outputTr (X := X) t = Spec.outputTr u := by rw [Spec.outputTr, Spec.outputTr, hft]
  refine ⟨?_, (output_only_if hu h0 hf).resolve_right h⟩
  rcases output_only_if hs hs0 hf with ⟨e, he⟩ | h1
  · exact ⟨e, C49_raises t he⟩
  obtain ⟨b, e1, h2⟩ := C49_tuple hs hs0 hf h1
  rw [es] at h2
  rcases output_only_if ht ht0 (f := wrapOutput s f) (args := args) (kw := kw) e1 with he | h3
  · exact he
  refine absurd (fun k p fr hk => ?_) h
  rcases (hT k p fr).mp hk with hk | hk
  · rw [← es]; exact h1 k p fr hk
  · rw [← h2.2.2 k.toNat (by rw [Int.toNat_of_nonneg (ht0 k (target_mem hk))]; exact fun h => hd k h (target_mem hk)), ← et]
    exact h3 k p fr hk

omit hfs hft h0 in
theorem nested_output_single {f : Fn X} {args : List (Arg X)} {a : Arg X} {kw : Kwargs X} (hf : f.call args kw = .ok (.single a))
    (n1 : s.nums ≠ []) (n2 : t.nums ≠ []) :
    (∃ e, callOutput t (wrapOutput s f) args kw = .error e) ∧ ∃ e, callOutput u f args kw = .error e := by
  have mem : ∀ k, k ∈ u.nums ↔ k ∈ s.nums ∨ k ∈ t.nums := by
    intro k
    constructor
    · intro hk
      obtain ⟨p, fr, h⟩ := exists_target (constructed_ok hu) hk
      exact ((hT k p fr).mp h).imp target_mem target_mem
    · rintro (hk | hk)
      · obtain ⟨p, fr, h⟩ := exists_target (constructed_ok hs) hk
        exact target_mem ((hT k p fr).mpr (.inl h))
      · obtain ⟨p, fr, h⟩ := exists_target (constructed_ok ht) hk
        exact target_mem ((hT k p fr).mpr (.inr h))
  obtain ⟨k, hk⟩ := List.exists_mem_of_ne_nil _ n1
  obtain ⟨k', hk'⟩ := List.exists_mem_of_ne_nil _ n2
  have hne : k ≠ k' := fun h => hd k hk (h ▸ hk')
  constructor
  · by_cases h : s.nums = [0]
    · obtain ⟨p, fr, -, e⟩ := (C49_single hs hf).1 h
      cases e1 : Spec.outputTr s p fr a with
      | error x => rw [e1] at e; exact ⟨x, C49_raises t e⟩
      | ok v =>
        rw [e1] at e
        refine ((C49_single ht (f := wrapOutput s f) (args := args) (kw := kw) (a := v) e).2 fun h' => hne ?_).1
        rw [h] at hk; rw [h'] at hk'
        simp at hk hk'; omega
    · obtain ⟨x, e⟩ := ((C49_single hs hf).2 h).1
      exact ⟨x, C49_raises t e⟩
  · refine ((C49_single hu hf).2 fun h => hne ?_).1
    have h1 := (mem k).mpr (.inl hk)
    have h2 := (mem k').mpr (.inr hk')
    rw [h] at h1 h2
    simp at h1 h2; omega

end

/-- The constructor on a list of positions with patterns and flags. -/
theorem passed_construct (flat : Bool) {l : List (ℤ × Pattern × Option Bool)} (hn : (l.map (·.1)).Nodup) :
    ∃ s, passed (fun P F A => construct P F flat A) l = .ok s ∧ Spec.Constructed s ∧ s.originalIsFlat = flat ∧
      ∀ k p fr, Spec.Targets s k p fr ↔ (k, p, fr) ∈ l := by
  have wf : ∀ {α : Type} (d : List α), (vec d).WF := fun d => by simp [NDArray.WF, vec]
  have wfA : ∀ (d : List ℤ) a, some (vec d) = some a → a.WF := fun d a e => by cases e; exact wf d
  have hg : Spec.GoodArguments (vec (l.map (·.2.1))) (vec (l.map (·.2.2))) (some (vec (l.map (·.1)))) := by
    refine ⟨by simp [ndim, vec], .inr (.inr (by simp [vec])), ?_⟩
    rintro a e; cases e
    exact ⟨by simp [ndim, vec], hn, by simp [vec]⟩
  obtain ⟨s, s1, s2, s3, s4⟩ := (C46_construct flat (wf _) (wf _) (wfA _)).1 hg
  refine ⟨s, s1, s2, s3, fun k p fr => (s4 k p fr).trans ?_⟩
  rw [List.mem_iff_getElem?, Spec.Named]
  refine exists_congr fun i => ?_
  have e : (if (vec (l.map (·.2.2))).data.length = 1 then (vec (l.map (·.2.2))).data[0]? else (vec (l.map (·.2.2))).data[i]?) = some fr ↔
      (if l.length = 1 then l[0]? else l[i]?).map (·.2.2) = some fr := by
    simp only [vec, List.length_map, List.getElem?_map]; split <;> rfl
  rw [e]
  simp only [vec, List.getElem?_map]
  by_cases h1 : l.length = 1
  · obtain ⟨x, rfl⟩ := List.length_eq_one_iff.mp h1
    cases i with
    | zero => simp [Prod.ext_iff]; tauto
    | succ i => simp
  · rw [if_neg h1]
    cases l[i]? with
    | none => simp
    | some x => simp [Prod.ext_iff]; tauto

/-- The setting of both theorems. -/
theorem passed_append (flat : Bool) {l l' : List (ℤ × Pattern × Option Bool)} (hn : ((l ++ l').map (·.1)).Nodup)
    (h0 : ∀ it ∈ l ++ l', 0 ≤ it.1) : ∃ s t u, passed (fun P F A => construct P F flat A) l = .ok s ∧
      passed (fun P F A => construct P F flat A) l' = .ok t ∧ passed (fun P F A => construct P F flat A) (l ++ l') = .ok u ∧
      Spec.Constructed s ∧ Spec.Constructed t ∧ Spec.Constructed u ∧ s.originalIsFlat = flat ∧ t.originalIsFlat = flat ∧
      u.originalIsFlat = flat ∧ (∀ k ∈ s.nums, k ∉ t.nums) ∧
      (∀ k p fr, Spec.Targets u k p fr ↔ Spec.Targets s k p fr ∨ Spec.Targets t k p fr) ∧ (∀ k ∈ u.nums, 0 ≤ k) ∧
      (∀ k p fr, Spec.Targets u k p fr ↔ (k, p, fr) ∈ l ++ l') ∧ (l ≠ [] → s.nums ≠ []) ∧ (l' ≠ [] → t.nums ≠ []) := by
  have hn' := hn
  rw [List.map_append, List.nodup_append] at hn'
  obtain ⟨s, s1, s2, s3, s4⟩ := passed_construct flat hn'.1
  obtain ⟨t, t1, t2, t3, t4⟩ := passed_construct flat hn'.2.1
  obtain ⟨u, u1, u2, u3, u4⟩ := passed_construct flat hn
  have ne : ∀ {w : Wrapper} {m : List (ℤ × Pattern × Option Bool)}, (∀ k p fr, Spec.Targets w k p fr ↔ (k, p, fr) ∈ m) → m ≠ [] → w.nums ≠ [] := by
    intro w m h hm he
    obtain ⟨⟨k, p, fr⟩, hx⟩ := List.exists_mem_of_ne_nil _ hm
    have := target_mem ((h k p fr).mpr hx)
    rw [he] at this; cases this
  refine ⟨s, t, u, s1, t1, u1, s2, t2, u2, s3, t3, u3, ?_, ?_, ?_, u4, ne s4, ne t4⟩
  · intro k hs ht
    obtain ⟨p, fr, h⟩ := exists_target (constructed_ok s2) hs
    obtain ⟨p', fr', h'⟩ := exists_target (constructed_ok t2) ht
    exact hn'.2.2 k (List.mem_map.mpr ⟨_, (s4 _ _ _).mp h, rfl⟩) k (List.mem_map.mpr ⟨_, (t4 _ _ _).mp h', rfl⟩) rfl
  · intro k p fr; rw [u4, s4, t4, List.mem_append]
  · intro k hk
    obtain ⟨p, fr, h⟩ := exists_target (constructed_ok u2) hk
    exact h0 _ ((u4 _ _ _).mp h)

/-- **C86, inputs.**  Wrapping the inputs of `f` with some patterns, and the result with other patterns at other positions, is wrapping `f` once
with all of them, for every call in which all arguments to transform are there and can be transformed.  In any other call both raise,
whatever `f` is. -/
theorem C86_input (flat : Bool) {l l' : List (ℤ × Pattern × Option Bool)} (hn : ((l ++ l').map (·.1)).Nodup)
    (h0 : ∀ it ∈ l ++ l', 0 ≤ it.1) (args : List (Arg X)) :
    let wrap : Fn X → NDArray Pattern → NDArray (Option Bool) → Option (NDArray ℤ) → Except Err (Fn X) :=
      if flat then foldFunctionInput else flattenFunctionInput
    let ok := ∀ k p fr, (k, p, fr) ∈ l ++ l' → ∃ a v, args[k.toNat]? = some a ∧ (if flat then flattenArg else foldArg) p fr a = .ok v
    ∃ two one : Fn X → Fn X,
      (∀ f, ∃ g, passed (wrap f) l = .ok g ∧ passed (wrap g) l' = .ok (two f)) ∧ (∀ f, passed (wrap f) (l ++ l') = .ok (one f)) ∧
      (ok → ∀ f kw, (two f).call args kw = (one f).call args kw) ∧
      (¬ ok → (∃ e, ∀ f kw, (two f).call args kw = .error e) ∧ ∃ e, ∀ f kw, (one f).call args kw = .error e) := by
  intro wrap ok
  obtain ⟨s, t, u, s1, t1, u1, s2, t2, u2, s3, t3, u3, hd, hT, hu0, hm, -, -⟩ := passed_append flat hn h0
  have hw : ∀ (m : List (ℤ × Pattern × Option Bool)) (w : Wrapper) (f : Fn X), passed (fun P F A => construct P F flat A) m = .ok w →
      passed (wrap f) m = .ok (wrapInput w f) := by
    intro m w f h
    simp only [passed] at h ⊢
    cases flat
    · simp only [wrap, if_false, Bool.false_eq_true, flattenFunctionInput, h]; rfl
    · simp only [wrap, if_true, foldFunctionInput, h]; rfl
  have hok : Transformable (Spec.inputTr u) u args ↔ ok := by
    simp only [Transformable, ok, hm, Spec.inputTr, u3]
  obtain ⟨n1, n2⟩ := nested_input s2 t2 u2 (s3.trans u3.symm) (t3.trans u3.symm) hd hT hu0 args
  refine ⟨fun f => wrapInput t (wrapInput s f), wrapInput u, fun f => ⟨_, hw l s f s1, hw l' t _ t1⟩, fun f => hw _ u f u1,
    fun h f kw => n1 (hok.mpr h) f kw, fun h => ?_⟩
  obtain ⟨h1, h2⟩ := n2 (fun h' => h (hok.mp h'))
  exact ⟨h2, h1⟩

/-- **C86, outputs.**  The same for outputs: two wrappers for different return values are one wrapper for all of them when `f` returns a tuple
with these values and they can be transformed; when `f` returns any other tuple, or a single value, both raise; and an exception of `f`
is what both raise. -/
theorem C86_output (flat : Bool) {l l' : List (ℤ × Pattern × Option Bool)} (hn : ((l ++ l').map (·.1)).Nodup)
    (h0 : ∀ it ∈ l ++ l', 0 ≤ it.1) (hl : l ≠ []) (hl' : l' ≠ []) (f : Fn X) :
    let wrap : Fn X → NDArray Pattern → NDArray (Option Bool) → Option (NDArray ℤ) → Except Err (Fn X) :=
      if flat then foldFunctionOutput else flattenFunctionOutput
    ∃ g two one, passed (wrap f) l = .ok g ∧ passed (wrap g) l' = .ok two ∧ passed (wrap f) (l ++ l') = .ok one ∧ ∀ args kw,
      match f.call args kw with
      | .error e => two.call args kw = .error e ∧ one.call args kw = .error e
      | .ok (.single _) => (∃ e, two.call args kw = .error e) ∧ ∃ e, one.call args kw = .error e
      | .ok (.tuple rets) =>
        let ok := ∀ k p fr, (k, p, fr) ∈ l ++ l' → ∃ a v, rets[k.toNat]? = some a ∧ (if flat then foldArg else flattenArg) p fr a = .ok v
        (ok → two.call args kw = one.call args kw ∧ ∃ new, one.call args kw = .ok (.tuple new)) ∧
        (¬ ok → (∃ e, two.call args kw = .error e) ∧ ∃ e, one.call args kw = .error e) := by
  intro wrap
  obtain ⟨s, t, u, s1, t1, u1, s2, t2, u2, s3, t3, u3, hd, hT, hu0, hm, n1, n2⟩ := passed_append flat hn h0
  have hw : ∀ (m : List (ℤ × Pattern × Option Bool)) (w : Wrapper) (f : Fn X), passed (fun P F A => construct P F flat A) m = .ok w →
      passed (wrap f) m = .ok (wrapOutput w f) := by
    intro m w f h
    simp only [passed] at h ⊢
    cases flat
    · simp only [wrap, if_false, Bool.false_eq_true, flattenFunctionOutput, h]; rfl
    · simp only [wrap, if_true, foldFunctionOutput, h]; rfl
  refine ⟨_, _, _, hw l s f s1, hw l' t _ t1, hw _ u f u1, fun args kw => ?_⟩
  cases hf : f.call args kw with
  | error e => exact ⟨C49_raises t (f := wrapOutput s f) (C49_raises s hf), C49_raises u hf⟩
  | ok r =>
    cases r with
    | single a => exact nested_output_single s2 t2 u2 hd hT hf (n1 hl) (n2 hl')
    | tuple rets =>
      have hok : Transformable (Spec.outputTr u) u rets ↔ ∀ k p fr, (k, p, fr) ∈ l ++ l' →
          ∃ a v, rets[k.toNat]? = some a ∧ (if flat then foldArg else flattenArg) p fr a = .ok v := by
        simp only [Transformable, hm, Spec.outputTr, u3]
      refine ⟨fun h => ⟨nested_output s2 t2 u2 (s3.trans u3.symm) (t3.trans u3.symm) hd hT hu0 hf (hok.mpr h), ?_⟩,
        fun h => nested_output_error s2 t2 u2 (s3.trans u3.symm) (t3.trans u3.symm) hd hT hu0 hf (fun h' => h (hok.mp h'))⟩
      obtain ⟨new, e, -⟩ := C49_tuple u2 hu0 hf (hok.mpr h)
      exact ⟨new, e⟩

/-- Non-vacuity of C86: two patterns at positions 2 and 0, and a call with three arguments, both of which can be folded. -/
example (x : X) : ∃ (l l' : List (ℤ × Pattern × Option Bool)) (args : List (Arg X)), l ≠ [] ∧ l' ≠ [] ∧ ((l ++ l').map (·.1)).Nodup ∧
    (∀ it ∈ l ++ l', 0 ≤ it.1) ∧ args[1]? = some (.other x) ∧
    ∀ k p fr, (k, p, fr) ∈ l ++ l' → ∃ a v, args[k.toNat]? = some a ∧ (if true then flattenArg else foldArg) p fr a = .ok v := by
  obtain ⟨u, w, ⟨y, hy, _⟩, ⟨z, hz, _⟩⟩ := exWrapper_values
  refine ⟨[(2, exScalar, some true)], [(0, exPat, some true)], [.val u, .other x, .val w], by simp, by simp, by simp, by simp, rfl, ?_⟩
  intro k p fr h
  simp at h
  rcases h with ⟨rfl, rfl, rfl⟩ | ⟨rfl, rfl, rfl⟩
  · exact ⟨.val w, .val (.arr z), rfl, by simp [flattenArg, hz, bind, Except.bind, pure, Except.pure]⟩
  · exact ⟨.val u, .val (.arr y), rfl, by simp [flattenArg, hy, bind, Except.bind, pure, Except.pure]⟩

end Paragami
