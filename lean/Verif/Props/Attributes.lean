import Verif.Proofs.AttributesValidate

/-!
# C136: assigning to the attributes of patterns
-/

namespace Paragami.Attributes
open Pattern

/-- **C136, what objects stand for.**  After every program that makes patterns, puts them into dictionaries and arrays, takes them out,
locks and assigns to attributes, every object stands for exactly one tree, and the pattern is one that the constructors make. -/
theorem C136_stands {ss : List Stmt} (hs : ∀ s ∈ ss, Good s) {i : Nat} (hi : i < (run [] ss).length) :
    ∃ t, Stands (run [] ss) i t ∧ Built t.pattern ∧ ∀ t', Stands (run [] ss) i t' → t' = t := by
  have hh := run_inv hs inv_nil
  obtain ⟨t, ht⟩ := stands_exists hh i hi
  exact ⟨t, ht, WF.built _ (stands_wf hh t ht), fun t' ht' => (stands_unique t ht ht').symm⟩

/-- **C136, assignment to `default_validate`.**  It never raises, not even for members of locked dictionaries, and all objects, however they
refer to the one assigned to, see the new value and no other change. -/
theorem C136_validate {h : Heap} {i : Nat} (hi : i < h.length) (b : Bool) : (step h (.validate i b)).1 = .ok () ∧
    ∀ j t, Stands h j t → Stands (step h (.validate i b)).2 j (t.validate i b) := by
  have hn : h[i]? = some h[i] := List.getElem?_eq_getElem hi
  rw [step, hn]
  exact ⟨rfl, fun j t ht => stands_validate hn b t ht⟩

/-- **C136, assignment to `free_default`.** -/
theorem C136_free {h : Heap} {i : Nat} (hi : i < h.length) (fd : Option Bool) : (step h (.free i fd)).1 = .ok () ∧
    ∀ j t, Stands h j t → Stands (step h (.free i fd)).2 j (t.free i fd) := by
  have hn : h[i]? = some h[i] := List.getElem?_eq_getElem hi
  rw [step, hn]
  exact ⟨rfl, fun j t ht => stands_free hn fd t ht⟩

/-- **C136, nothing else.**  Objects without a part in `i` are not affected. -/
theorem C136_untouched {t : Tree} {i : Nat} (h : ¬ t.Has i) (b : Bool) (fd : Option Bool) : t.validate i b = t ∧ t.free i fd = t :=
  ⟨validate_untouched i b t h, free_untouched i fd t h⟩

/-- **C136, containers have no `default_validate`.**  Assigning to it changes nothing. -/
theorem C136_container {h : Heap} {i : Nat} {n : Node} (hn : h[i]? = some n) (hl : ∀ p, n ≠ .leaf p) (b : Bool) :
    (step h (.validate i b)).2 = h := by
  simp only [step, hn]
  cases n with
  | leaf p => exact absurd rfl (hl p)
  | _ =>
    obtain ⟨hi, hv⟩ := List.getElem?_eq_some_iff.1 hn
    rw [Node.setValidate, ← hv, List.set_getElem_self]
    exact hl

/-- **C136, an explicit `validate_value`.**  With the argument given, no assignment to `default_validate` is seen by `fold`, `flatten` and
`validate_folded`; lengths and folding of free vectors never see it. -/
theorem C136_explicit (t : Tree) (i : Nat) (b c : Bool) (x : NDArray Flt) (v : Val Flt) (free vv : Option Bool) :
    (t.validate i b).pattern.fold x free (some c) = t.pattern.fold x free (some c) ∧
    (t.validate i b).pattern.flatten v free (some c) = t.pattern.flatten v free (some c) ∧
    (t.validate i b).pattern.validate v (some c) = t.pattern.validate v (some c) ∧
    (t.validate i b).pattern.flatLength free = t.pattern.flatLength free ∧
    (t.validate i b).pattern.fold x (some true) vv = t.pattern.fold x (some true) vv := by
  have e := validating_validate i b false t
  have key : ∀ p : Pattern, p.fold x free (some c) = (validating false p).fold x free (some c) ∧
      p.flatten v free (some c) = (validating false p).flatten v free (some c) ∧
      p.validate v (some c) = (validating false p).validate v (some c) ∧
      p.flatLength free = (validating false p).flatLength free ∧
      p.fold x (some true) vv = (validating false p).fold x (some true) vv := fun p => by
    refine ⟨by rw [fold_validating]; rfl, by rw [flatten_validating]; rfl, by rw [validate_validating]; rfl, ?_, ?_⟩
    · simp only [flatLength, freeDefault_validating, flatLen_validating]
    · simp only [Pattern.fold, freeDefault_validating, freeWithDefault_some, bind, Except.bind, foldFree_validating]
      rfl
  obtain ⟨a1, a2, a3, a4, a5⟩ := key (t.validate i b).pattern
  obtain ⟨b1, b2, b3, b4, b5⟩ := key t.pattern
  rw [a1, a2, a3, a4, a5, b1, b2, b3, b4, b5, e]
  exact ⟨rfl, rfl, rfl, rfl, rfl⟩

/-- **C136, the default is what is used without the argument.**  If `i` is the only pattern in the object that is not a container, after
`i.default_validate = b` calls without `validate_value` do what `validate_value=b` did before. -/
theorem C136_default {ss : List Stmt} (hs : ∀ s ∈ ss, Good s) {i j : Nat} {t : Tree} (ht : Stands (run [] ss) j t) (ho : t.Only i) (b : Bool)
    (x : NDArray Flt) (v : Val Flt) (free : Option Bool) :
    (t.validate i b).pattern.fold x free none = t.pattern.fold x free (some b) ∧
    (t.validate i b).pattern.flatten v free none = t.pattern.flatten v free (some b) ∧
    (t.validate i b).pattern.validate v none = t.pattern.validate v (some b) := by
  rw [validate_only _ (run_inv hs inv_nil) i b t ht ho, fold_validating, flatten_validating, validate_validating]
  exact ⟨rfl, rfl, rfl⟩

/-- **C136, `free_default` of members.**  Only the pattern assigned to uses it: an object that contains it does what it did. -/
theorem C136_member_free (t : Tree) {i : Nat} (hi : t.id ≠ i) (fd free vv : Option Bool) (x : NDArray Flt) (v : Val Flt) :
    (t.free i fd).pattern.fold x free vv = t.pattern.fold x free vv ∧
    (t.free i fd).pattern.flatten v free vv = t.pattern.flatten v free vv ∧
    (t.free i fd).pattern.flatLength free = t.pattern.flatLength free :=
  C28_member_defaults_ignored (strip_free i fd t) (freeDefault_free i fd t hi) free vv x v

/-- **C136, `free_default` of the pattern itself.**  After `p.free_default = b` calls without `free` do what `free=b` did before, and calls
with `free` what they did. -/
theorem C136_own_free (t : Tree) (b c : Bool) (vv : Option Bool) (x : NDArray Flt) (v : Val Flt) :
    ((t.free t.id (some b)).pattern.fold x none vv = t.pattern.fold x (some b) vv ∧
      (t.free t.id (some b)).pattern.flatten v none vv = t.pattern.flatten v (some b) vv ∧
      (t.free t.id (some b)).pattern.flatLength none = t.pattern.flatLength (some b)) ∧
    (t.free t.id (some b)).pattern.fold x (some c) vv = t.pattern.fold x (some c) vv ∧
    (t.free t.id (some b)).pattern.flatten v (some c) vv = t.pattern.flatten v (some c) vv ∧
    (t.free t.id (some b)).pattern.flatLength (some c) = t.pattern.flatLength (some c) := by
  have hd := freeDefault_free_self (some b) t
  have he := strip_free t.id (some b) t
  have key : ∀ c : Bool, (t.free t.id (some b)).pattern.fold x (some c) vv = t.pattern.fold x (some c) vv ∧
      (t.free t.id (some b)).pattern.flatten v (some c) vv = t.pattern.flatten v (some c) vv ∧
      (t.free t.id (some b)).pattern.flatLength (some c) = t.pattern.flatLength (some c) := fun c => by
    obtain ⟨a1, a2, a3⟩ := C28_explicit_overrides (t.free t.id (some b)).pattern c x v vv
    obtain ⟨b1, b2, b3⟩ := C28_explicit_overrides t.pattern c x v vv
    rw [a1, a2, a3, b1, b2, b3, he]
    exact ⟨rfl, rfl, rfl⟩
  refine ⟨?_, key c⟩
  obtain ⟨a1, a2, a3⟩ := key b
  rw [← a1, ← a2, ← a3]
  simp only [Pattern.fold, Pattern.flatten, flatLength, hd, freeWithDefault_some]
  exact ⟨rfl, rfl, rfl⟩

/-- C136 is not vacuous: a vector of two positive numbers is a member of two dictionaries, one of them locked inside a third; turning
validation off through any of them is seen through all. -/
example : let v := Pattern.numeric .vector [2] (.flt (.fin 0)) (.flt .pinf) true none
    let v' := Pattern.numeric .vector [2] (.flt (.fin 0)) (.flt .pinf) false none
    let ss := [Stmt.leaf v, .dict none, .dict none, .dict none, .set 1 "a" 0, .set 2 "b" 0, .set 3 "c" 2]
    (∀ s ∈ ss, Good s) ∧
      Stands (run [] ss) 1 (.dict 1 (.cons "a" (.leaf 0 v) .nil) false none) ∧
      Stands (run [] ss) 3 (.dict 3 (.cons "c" (.dict 2 (.cons "b" (.leaf 0 v) .nil) true none) .nil) false none) ∧
      Stands (step (run [] ss) (.validate 0 false)).2 1 (.dict 1 (.cons "a" (.leaf 0 v') .nil) false none) ∧
      Stands (step (run [] ss) (.validate 0 false)).2 3
        (.dict 3 (.cons "c" (.dict 2 (.cons "b" (.leaf 0 v') .nil) true none) .nil) false none) ∧
      v.validate (α := Flt) (.arr ⟨[2], [.fin (-1), .fin 1]⟩) none ≠ v'.validate (α := Flt) (.arr ⟨[2], [.fin (-1), .fin 1]⟩) none := by
  intro v v' ss
  have hb : Built v := WF.built _ (by simp [v, Pattern.WF, PyNum.toFlt, Flt.NotNaN, Flt.lt])
  have hg : ∀ s ∈ ss, Good s := by
    intro s hs
    simp only [ss, List.mem_cons, List.not_mem_nil, or_false] at hs
    rcases hs with rfl | rfl | rfl | rfl | rfl | rfl | rfl
    · exact ⟨hb, rfl, fun s b fd => nofun⟩
    all_goals simp [Good]
  have h1 : Stands (run [] ss) 1 (.dict 1 (.cons "a" (.leaf 0 v) .nil) false none) :=
    .dict rfl (.cons (.leaf rfl) .nil)
  have h3 : Stands (run [] ss) 3 (.dict 3 (.cons "c" (.dict 2 (.cons "b" (.leaf 0 v) .nil) true none) .nil) false none) :=
    .dict rfl (.cons (.dict rfl (.cons (.leaf rfl) .nil)) .nil)
  refine ⟨hg, h1, h3, (C136_validate (by decide) false).2 1 _ h1, (C136_validate (by decide) false).2 3 _ h3, ?_⟩
  simp [v, v', Pattern.validate, Val.asArr, Numeric.validate, Numeric.validateShape, NDArray.atleast1d, PyNum.toFlt, Flt.lt, Elem.toFlt, bind, Except.bind, pure, Except.pure]

end Paragami.Attributes
