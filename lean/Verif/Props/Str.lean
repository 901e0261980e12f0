import Verif.Proofs.Str
import Verif.Props.Json

/-! # C91: the text of a pattern -/

namespace Paragami
open Pattern

/-- A way to print floats: infinities, and integral values as Python does up to sixteen digits. -/
noncomputable def exFmt : Flt → String
  | .pinf => "inf"
  | .ninf => "-inf"
  | .nan => "nan"
  | .fin x => toString ⌊x⌋ ++ ".0"

/-- Ints, infinities, NaN and integral floats. -/
def exNums : PyNum → Prop
  | .int _ => True
  | .flt (.fin x) => ∃ i : ℤ, x = i
  | .flt _ => True

theorem toList_int : ∀ i : ℤ, (toString i).toList = if 0 ≤ i then Nat.toDigits 10 i.natAbs else '-' :: Nat.toDigits 10 i.natAbs
  | .ofNat n => by
    have : toString (Int.ofNat n) = toString n := rfl
    rw [this, toList_toString]; simp
  | .negSucc n => by
    have : toString (Int.negSucc n) = "-" ++ toString (n + 1) := rfl
    rw [this, String.toList_append, toList_toString]; simp

theorem int_char {i : ℤ} {c : Char} (h : c ∈ (toString i).toList) : c = '-' ∨ c.isDigit = true := by
  rw [toList_int] at h
  split at h
  · exact Or.inr (Nat.isDigit_of_mem_toDigits (by omega) (by omega) h)
  · rcases List.mem_cons.mp h with rfl | h
    · exact Or.inl rfl
    · exact Or.inr (Nat.isDigit_of_mem_toDigits (by omega) (by omega) h)

theorem toDigits_inj {m n : Nat} (h : Nat.toDigits 10 m = Nat.toDigits 10 n) : m = n :=
  toString_inj (String.toList_inj.mp (by rw [toList_toString, toList_toString, h]))

theorem int_inj {i j : ℤ} (h : toString i = toString j) : i = j := by
  replace h := congrArg String.toList h
  rw [toList_int, toList_int] at h
  have key : ∀ m n : Nat, Nat.toDigits 10 m ≠ '-' :: Nat.toDigits 10 n := fun m n h => by
    have : '-' ∈ Nat.toDigits 10 m := by rw [h]; simp
    have := Nat.isDigit_of_mem_toDigits (by omega) (by omega) this
    simp at this
  split at h <;> split at h
  · have := toDigits_inj h; omega
  · exact absurd h (key _ _)
  · exact absurd h.symm (key _ _)
  · have := toDigits_inj (List.cons.inj h).2; omega

theorem exNumText : Spec.NumText (PyNum.str exFmt) exNums where
  inj a b ha hb h := by
    have hd : ∀ (i j : ℤ), toString i ≠ toString j ++ ".0" := fun i j h => by
      have : '.' ∈ (toString i).toList := by rw [h]; simp
      have := int_char this
      simp at this
    have hw : ∀ (i : ℤ) (s : String) (c : Char), c ∈ s.toList → c ≠ '-' → c.isDigit = false → toString i ≠ s := fun i s c hc h1 h2 h => by
      subst h
      rcases int_char hc with h | h
      · exact h1 h
      · simp [h] at h2
    have hw' : ∀ (i : ℤ) (s : String) (c : Char), c ∈ s.toList → c ≠ '-' → c ≠ '.' → c.isDigit = false → toString i ++ ".0" ≠ s :=
      fun i s c hc h1 h3 h2 h => by
        subst h
        simp only [String.toList_append, List.mem_append] at hc
        rcases hc with hc | hc
        · rcases int_char hc with h | h
          · exact h1 h
          · simp [h] at h2
        · simp at hc
          rcases hc with rfl | rfl
          · exact h3 rfl
          · simp at h2
    rcases a with i | (x | _ | _ | _) <;> rcases b with j | (y | _ | _ | _) <;> simp only [PyNum.str, exFmt] at h
    all_goals first
      | rfl
      | (rw [int_inj h])
      | (obtain ⟨i, rfl⟩ := ha
         obtain ⟨j, rfl⟩ := hb
         simp only [Int.floor_intCast] at h
         have : (toString i).toList = (toString j).toList := by
           have := congrArg String.toList h
           simpa only [String.toList_append, List.append_cancel_right_eq] using this
         rw [int_inj (String.toList_inj.mp this)])
      | exact absurd h (hd _ _)
      | exact absurd h.symm (hd _ _)
      | exact absurd h (hw _ _ 'n' (by simp) (by decide) (by decide))
      | exact absurd h.symm (hw _ _ 'n' (by simp) (by decide) (by decide))
      | exact absurd h (hw' _ _ 'n' (by simp) (by decide) (by decide) (by decide))
      | exact absurd h.symm (hw' _ _ 'n' (by simp) (by decide) (by decide) (by decide))
      | (simp at h)
  clean a ha c hc := by
    have hi : ∀ (i : ℤ) (c : Char), c ∈ (toString i).toList → c ≠ ',' ∧ c ≠ ')' ∧ c ≠ '\n' := fun i c h => by
      rcases int_char h with rfl | h
      · decide
      · exact ⟨Str.digit_ne h (by decide), Str.digit_ne h (by decide), Str.digit_ne h (by decide)⟩
    rcases a with i | (x | _ | _ | _) <;> simp only [PyNum.str, exFmt] at hc
    · exact hi _ _ hc
    · simp only [String.toList_append, List.mem_append] at hc
      rcases hc with hc | hc
      · exact hi _ _ hc
      · simp at hc; rcases hc with rfl | rfl <;> decide
    all_goals (simp at hc; rcases hc with rfl | rfl | rfl | rfl <;> decide)

/-- **C91.** Without nested dictionaries, two patterns have the same text exactly when they agree in everything but the numeric
subclass, `default_validate`, `free_default` and the lock: shapes, sizes, bounds, base patterns, keys and their order can be read
off. -/
theorem C91_faithful {fmt : Flt → String} {S : PyNum → Prop} (hS : Spec.NumText (PyNum.str fmt) S) {p q : Pattern} (hp : Spec.FlatDict p)
    (hq : Spec.FlatDict q) (hb : Spec.BoundsIn S p) (hb' : Spec.BoundsIn S q) : p.str fmt = q.str fmt ↔ Spec.shown p = Spec.shown q :=
  ⟨Str.str_inj_flat hS hp hq hb hb', fun h => by rw [← Str.str_shown p, h, Str.str_shown]⟩

example : ∃ p q : Pattern, Built p ∧ Built q ∧ Spec.FlatDict p ∧ Spec.FlatDict q ∧ Spec.BoundsIn exNums p ∧ Spec.BoundsIn exNums q ∧
    p ≠ q ∧ p.str exFmt = q.str exFmt := by
  refine ⟨.dict (.cons "x" (.array [2] (.numeric .scalar [1] (.int 0) (.flt .pinf) true none) none) .nil) false none,
    .dict (.cons "x" (.array [2] (.numeric .array [1] (.int 0) (.flt .pinf) false (some true)) none) .nil) true none,
    WF.built _ (by simp [Pattern.WF, WFEs, lock, isDict, Entries.keys, Entries.toList, PyNum.toFlt, Flt.NotNaN, Flt.lt]), WF.built _ (by simp [Pattern.WF, WFEs, lock, isDict, Entries.keys, Entries.toList, PyNum.toFlt, Flt.NotNaN, Flt.lt]), ?_, ?_, ?_, ?_, by simp, ?_⟩
  · simp [Spec.FlatDict, Entries.toList, Spec.NoDict]
  · simp [Spec.FlatDict, Entries.toList, Spec.NoDict]
  · simp [Spec.BoundsIn, Spec.BoundsInEs, exNums]
  · simp [Spec.BoundsIn, Spec.BoundsInEs, exNums]
  · rfl

/-- **C91.** Whatever the tree, the text does not show the numeric subclass, `default_validate`, `free_default` and the lock. -/
theorem C91_hidden (fmt : Flt → String) {p q : Pattern} (h : Spec.shown p = Spec.shown q) : p.str fmt = q.str fmt := by
  rw [← Str.str_shown p, h, Str.str_shown]

example : ∃ p q : Pattern, Built p ∧ Built q ∧ p ≠ q ∧ Spec.shown p = Spec.shown q :=
  ⟨.simplex 3 [2] true none, .simplex 3 [2] false (some true), WF.built _ (by simp [Pattern.WF]), WF.built _ (by simp [Pattern.WF]), by simp, rfl⟩

/-- **C91, nested dictionaries are ambiguous.** Where the inner dictionary ends cannot be seen: the members after the first of the inner
dictionary could as well be members of the outer one. -/
theorem C91_nested_ambiguous (fmt : Flt → String) (k : String) (a b : Entries) (ha : a ≠ .nil) (l l' l'' : Bool) (fd fd' fd'' : Option Bool) :
    (Pattern.dict (.cons k (.dict (Spec.append a b) l fd) .nil) l' fd').str fmt =
      (Pattern.dict (.cons k (.dict a l'' fd'') b) l' fd').str fmt :=
  Str.ambiguous k l l' l'' fd fd' fd'' ha

/-- **C91, the claim fails for nested dictionaries.** Two dictionaries of different lengths have the same text. -/
theorem C91_nested_false (fmt : Flt → String) : ∃ p q : Pattern, Built p ∧ Built q ∧ p.str fmt = q.str fmt ∧
    (∃ es l fd, p = .dict es l fd ∧ es.keys = ["a"]) ∧ ∃ es l fd, q = .dict es l fd ∧ es.keys = ["a", "c"] := by
  let s : Pattern := .simplex 3 [] true none
  refine ⟨.dict (.cons "a" (.dict (.cons "b" s (.cons "c" s .nil)) true none) .nil) false none,
    .dict (.cons "a" (.dict (.cons "b" s .nil) true none) (.cons "c" s .nil)) false none,
    WF.built _ (by simp [s, Pattern.WF, WFEs, lock, Entries.keys, Entries.toList]),
    WF.built _ (by simp [s, Pattern.WF, WFEs, lock, Entries.keys, Entries.toList]), ?_, ⟨_, _, _, rfl, rfl⟩, _, _, _, rfl, rfl⟩
  exact C91_nested_ambiguous fmt "a" (.cons "b" s .nil) (.cons "c" s .nil) (by simp) true false true none none none

/-- **C91, text and equality are independent.** Patterns that compare equal may have different texts, and patterns with the same text
may compare different. -/
theorem C91_not_equality {fmt : Flt → String} {S : PyNum → Prop} (hS : Spec.NumText (PyNum.str fmt) S) (h0 : S (.int 0))
    (h1 : S (.flt (.fin 0))) (h2 : S (.flt .pinf)) :
    (∃ p q : Pattern, Built p ∧ Built q ∧ p.EqPy q ∧ p.str fmt ≠ q.str fmt) ∧
    ∃ p q : Pattern, Built p ∧ Built q ∧ p.str fmt = q.str fmt ∧ ¬ p.EqPy q := by
  constructor
  · refine ⟨_, _, exEq.1, exEq.2.1, exEq.2.2, fun h => ?_⟩
    have := (C91_faithful hS (p := .numeric .array [2] (.int 0) (.flt .pinf) true none)
      (q := .numeric .array [2] (.flt (.fin 0)) (.flt .pinf) true none) trivial trivial ⟨h0, h2⟩ ⟨h1, h2⟩).mp h
    simp [Spec.shown] at this
  · have e1 : Built (.simplex 3 [2] true none) := WF.built _ (by simp [Pattern.WF])
    have e2 : Built (.simplex 3 [2] false none) := WF.built _ (by simp [Pattern.WF])
    refine ⟨_, _, e1, e2, rfl, fun h => ?_⟩
    rw [C31_characterization e1 e2] at h
    simp [Spec.Same] at h

example : exNums (.int 0) ∧ exNums (.flt (.fin 0)) ∧ exNums (.flt .pinf) := ⟨trivial, ⟨0, by simp⟩, trivial⟩

end Paragami
