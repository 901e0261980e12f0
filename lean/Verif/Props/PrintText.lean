import Verif.Proofs.PrintText
import Verif.Props.Optimization

/-! # C104: what `OptimizationObjective` prints -/

namespace Paragami
open Spec PrintText Optimization

/-- **C104, numbers.**  A finite value is printed with exactly eight decimals, and what is printed is closest to it: they differ by at most 5e-9, and
of two equally close fractions the one with the even last digit is printed.  The sign is printed exactly if the value is negative, even before zeros. -/
theorem C104_number (r : ℝ) : ∃ n, FixedPoint (number (.fin r)) (decide (r < 0)) n ∧ |said (decide (r < 0)) n - r| ≤ 1 / 2 / 10 ^ 8 ∧
    (|said (decide (r < 0)) n - r| = 1 / 2 / 10 ^ 8 → n % 2 = 0) := by
  refine ⟨roundEven (|r| * 10 ^ 8), ?_, said_closest.mp (roundEven_closest (by positivity))⟩
  rw [number, fixed_text]
  exact text_point _ _

/-- **C104, only this.**  No other text has these properties. -/
theorem C104_unique {r : ℝ} {t : List Char} {n : Nat} (ht : FixedPoint t (decide (r < 0)) n) (h1 : |said (decide (r < 0)) n - r| ≤ 1 / 2 / 10 ^ 8)
    (h2 : |said (decide (r < 0)) n - r| = 1 / 2 / 10 ^ 8 → n % 2 = 0) : t = number (.fin r) := by
  rw [number, fixed_text, point_text ht, (roundEven_closest (by positivity)).unique (said_closest.mpr ⟨h1, h2⟩)]

theorem fixed_of {r : ℝ} {neg : Bool} {n : Nat} (h : FixedPoint (number (.fin r)) neg n) : neg = decide (r < 0) ∧ n = roundEven (|r| * 10 ^ 8) := by
  have h1 := point_text h
  rw [number, fixed_text] at h1
  have hd : ∀ n, '-' ∉ Nat.toDigits 10 n := fun n h => absurd ((JsonText.digits_nat n).1.2 _ h) (by decide)
  have hm : ∀ m k, text true m ≠ text false k := fun m k h => by
    simp only [text, if_true, Bool.false_eq_true, if_false, List.nil_append, List.singleton_append] at h
    cases hk : Nat.toDigits 10 (k / 10 ^ 8) with
    | nil => exact Nat.toDigits_ne_nil hk
    | cons c l =>
      rw [hk, List.cons_append, List.cons.injEq] at h
      exact hd _ (by rw [hk, h.1]; simp)
  have hi : ∀ b m k, text b m = text b k → m = k := fun b m k h => by
    obtain ⟨w, d, e1, hw, -, hd', -, e2⟩ := text_point b m
    obtain ⟨w', d', e1', hw', -, hd'', -, e2'⟩ := text_point b k
    rw [e1, e1', List.append_cancel_left_eq] at h
    have hp : ∀ {w : List Char}, DecDigits w → '.' ∉ w := fun hw h => absurd (hw.2 _ h) (by decide)
    obtain ⟨rfl, rfl⟩ := split_at (hp hw) (hp hw') h
    rw [e2, e2']
  generalize decide (r < 0) = b at h1 ⊢
  cases b <;> cases neg
  · exact ⟨rfl, (hi _ _ _ h1).symm⟩
  · exact absurd h1.symm (hm _ _)
  · exact absurd h1 (hm _ _)
  · exact ⟨rfl, (hi _ _ _ h1).symm⟩

theorem said_mono {r s : ℝ} {a b : Bool} {n m : Nat} (hr : FixedPoint (number (.fin r)) a n) (hs : FixedPoint (number (.fin s)) b m) (h : r ≤ s) :
    said a n ≤ said b m := by
  obtain ⟨rfl, rfl⟩ := fixed_of hr
  obtain ⟨rfl, rfl⟩ := fixed_of hs
  have h10 : (0 : ℝ) < 10 ^ 8 := by norm_num
  have c1 := roundEven_closest (y := |r| * 10 ^ 8) (by positivity)
  have c2 := roundEven_closest (y := |s| * 10 ^ 8) (by positivity)
  rw [said, said, div_le_div_iff_of_pos_right h10]
  by_cases h1 : r < 0
  · by_cases h2 : s < 0
    · simp only [h1, h2, decide_true, if_true]
      have := c2.mono c1 (by rw [abs_of_neg h1, abs_of_neg h2]; nlinarith)
      have : (roundEven (|s| * 10 ^ 8) : ℝ) ≤ roundEven (|r| * 10 ^ 8) := by exact_mod_cast this
      linarith
    · simp only [h1, h2, decide_true, decide_false, if_true, Bool.false_eq_true, if_false]
      have p1 : (0 : ℝ) ≤ roundEven (|r| * 10 ^ 8) := Nat.cast_nonneg _
      have p2 : (0 : ℝ) ≤ roundEven (|s| * 10 ^ 8) := Nat.cast_nonneg _
      linarith
  · have h2 : ¬ s < 0 := by linarith [not_lt.mp h1]
    simp only [h1, h2, decide_false, Bool.false_eq_true, if_false]
    have := c1.mono c2 (by rw [abs_of_nonneg (not_lt.mp h1), abs_of_nonneg (not_lt.mp h2)]; nlinarith)
    exact_mod_cast this

/-- **C104, order.**  Larger values never print as smaller numbers.  So if a later line shows a larger number, the objective has become larger. -/
theorem C104_order {r s : ℝ} {a b : Bool} {n m : Nat} (hr : FixedPoint (number (.fin r)) a n) (hs : FixedPoint (number (.fin s)) b m) :
    (r ≤ s → said a n ≤ said b m) ∧ (said a n < said b m → r < s) :=
  ⟨said_mono hr hs, fun h => lt_of_not_ge fun hc => absurd (said_mono hs hr hc) (not_le.mpr h)⟩

/-- **C104, zeros.**  All digits are zeros exactly if the value is at most 5e-9 in absolute value. -/
theorem C104_zero {r : ℝ} {neg : Bool} {n : Nat} (h : FixedPoint (number (.fin r)) neg n) : n = 0 ↔ |r| ≤ 1 / 2 / 10 ^ 8 := by
  obtain ⟨rfl, rfl⟩ := fixed_of h
  have c := roundEven_closest (y := |r| * 10 ^ 8) (by positivity)
  have h10 : (0 : ℝ) < 10 ^ 8 := by norm_num
  constructor
  · intro h
    have := c.1
    rw [h, Nat.cast_zero, zero_sub, abs_neg, abs_of_nonneg (by positivity)] at this
    rwa [le_div_iff₀ h10]
  · intro h
    rw [le_div_iff₀ h10] at h
    refine c.unique ⟨?_, fun _ => rfl⟩
    rw [Nat.cast_zero, zero_sub, abs_neg, abs_of_nonneg (by positivity)]
    exact h

theorem number_alike {v w : Flt} (h : number v = number w) : Alike v w := by
  have special : ∀ (r : ℝ) (t : List Char), t = ['i', 'n', 'f'] ∨ t = ['-', 'i', 'n', 'f'] ∨ t = ['n', 'a', 'n'] → number (.fin r) ≠ t := by
    intro r t ht h
    obtain ⟨n, ⟨w, d, e, _⟩, _⟩ := C104_number r
    have hm : '.' ∈ number (.fin r) := by rw [e]; simp
    rw [h] at hm
    rcases ht with rfl | rfl | rfl <;> exact absurd hm (by decide)
  cases v with
  | fin r =>
    cases w with
    | fin s =>
      obtain ⟨n, hn, h1, -⟩ := C104_number r
      obtain ⟨m, hm, h2, -⟩ := C104_number s
      have e := fixed_of (r := s) (by rw [← h]; exact hn)
      have e' := fixed_of hm
      rw [e.2.trans e'.2.symm] at h1
      rw [e.1] at h1
      have : |r - s| ≤ |said (decide (s < 0)) m - r| + |said (decide (s < 0)) m - s| := by
        have := abs_sub (said (decide (s < 0)) m - s) (said (decide (s < 0)) m - r)
        rw [show said (decide (s < 0)) m - s - (said (decide (s < 0)) m - r) = r - s by ring] at this
        linarith
      show |r - s| ≤ 1 / 10 ^ 8
      calc |r - s| ≤ _ := this
        _ ≤ 1 / 2 / 10 ^ 8 + 1 / 2 / 10 ^ 8 := add_le_add h1 h2
        _ = 1 / 10 ^ 8 := by norm_num
    | pinf => exact special r _ (.inl rfl) h
    | ninf => exact special r _ (.inr (.inl rfl)) h
    | nan => exact special r _ (.inr (.inr rfl)) h
  | pinf =>
    cases w with
    | fin s => exact special s _ (.inl rfl) h.symm
    | pinf => trivial
    | ninf => exact absurd h (by decide)
    | nan => exact absurd h (by decide)
  | ninf =>
    cases w with
    | fin s => exact special s _ (.inr (.inl rfl)) h.symm
    | pinf => exact absurd h (by decide)
    | ninf => trivial
    | nan => exact absurd h (by decide)
  | nan =>
    cases w with
    | fin s => exact special s _ (.inr (.inr rfl)) h.symm
    | pinf => exact absurd h (by decide)
    | ninf => exact absurd h (by decide)
    | nan => trivial

/-- **C104, reading the output.**  Two histories that print the same text printed as many lines, for the same iterations, and in each line for values
that are the same special value or differ by at most 1e-8. -/
theorem C104_output {X X' : Type} (fn : X → Except Err Flt) (fn' : X' → Except Err Flt) (p q p' q' : ℤ) (l : List (ObjOp X)) (l' : List (ObjOp X'))
    (h : output ((Objective.init p q).run fn l).printed = output ((Objective.init p' q').run fn' l').printed) :
    List.Forall₂ (fun e f : Nat × Flt => e.1 = f.1 ∧ Alike e.2 f.2) ((List.range l.length).filterMap (printEntry fn p l))
      ((List.range l'.length).filterMap (printEntry fn' p' l')) := by
  rw [C57_print, C57_print] at h
  have h1 := output_inj h
  generalize (List.range l.length).filterMap (printEntry fn p l) = a at h1
  generalize (List.range l'.length).filterMap (printEntry fn' p' l') = b at h1
  clear h
  induction a generalizing b with
  | nil =>
    cases b with
    | nil => exact .nil
    | cons => simp at h1
  | cons e a ih =>
    cases b with
    | nil => simp at h1
    | cons f b =>
      simp only [List.map_cons, List.cons.injEq, Prod.mk.injEq] at h1
      exact .cons ⟨h1.1.1, number_alike h1.1.2⟩ (ih b h1.2)

/-- **C104, lines.**  The number of line breaks in the output is the number of printed evaluations. -/
theorem C104_lines (l : List (Nat × Flt)) : (output l).count '\n' = l.length := by
  induction l with
  | nil => rfl
  | cons e l ih =>
    rw [output, List.flatMap_cons, List.count_append]
    have h1 : (number e.2).count '\n' = 0 := List.count_eq_zero.mpr (number_no_newline _)
    have h2 : (Nat.toDigits 10 e.1).count '\n' = 0 := List.count_eq_zero.mpr fun h => absurd ((JsonText.digits_nat _).1.2 _ h) (by decide)
    have h3 : (line e).count '\n' = 1 := by
      simp only [line, List.count_append, h1, h2]
      decide
    rw [h3, ← output, ih, List.length_cons]
    omega

/-- Non-vacuity: a value halfway between two fractions is printed with the even one, here 2.00000000 for 2 + 5e-9. -/
example : number (.fin (2 + 1 / 2 / 10 ^ 8)) = ['2', '.', '0', '0', '0', '0', '0', '0', '0', '0'] := by
  have hn : ¬ (2 + 1 / 2 / 10 ^ 8 : ℝ) < 0 := by norm_num
  have hs : said (decide ((2 + 1 / 2 / 10 ^ 8 : ℝ) < 0)) 200000000 = 2 := by rw [decide_eq_false hn, said]; norm_num
  refine (C104_unique (n := 200000000) ?_ ?_ ?_).symm
  · rw [decide_eq_false hn]
    refine ⟨['2'], ['0', '0', '0', '0', '0', '0', '0', '0'], rfl, ⟨by decide, by decide⟩, .inr (by decide), ⟨by decide, by decide⟩, rfl, by decide⟩
  · rw [hs]; norm_num [abs_of_neg]
  · intro _; rfl

/-- Non-vacuity: a small negative value is printed as a negative zero. -/
example : number (.fin (-1 / 10 ^ 9)) = ['-', '0', '.', '0', '0', '0', '0', '0', '0', '0', '0'] := by
  have hn : (-1 / 10 ^ 9 : ℝ) < 0 := by norm_num
  have hs : said (decide ((-1 / 10 ^ 9 : ℝ) < 0)) 0 = 0 := by rw [decide_eq_true hn, said]; norm_num
  refine (C104_unique (n := 0) ?_ ?_ ?_).symm
  · rw [decide_eq_true hn]
    refine ⟨['0'], ['0', '0', '0', '0', '0', '0', '0', '0'], rfl, ⟨by decide, by decide⟩, .inl rfl, ⟨by decide, by decide⟩, rfl, by decide⟩
  · rw [hs]; norm_num [abs_of_pos]
  · intro _; rfl

end Paragami
