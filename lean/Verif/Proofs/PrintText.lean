import Verif.Spec.PrintText
import Verif.Proofs.JsonTextSound

/-! # Lemmas about printed numbers -/

namespace Paragami
namespace PrintText
open Spec JsonText

/-- The closest integer, the even one of two. -/
def Closest (y : ℝ) (n : Nat) : Prop := |(n : ℝ) - y| ≤ 1 / 2 ∧ (|(n : ℝ) - y| = 1 / 2 → n % 2 = 0)

theorem roundEven_closest {y : ℝ} (hy : 0 ≤ y) : Closest y (roundEven y) := by
  have h1 := Nat.floor_le hy
  have h2 := Nat.lt_floor_add_one y
  rw [roundEven]
  generalize ⌊y⌋₊ = n at *
  split_ifs with h3 h4 h5
  · have h : |(n : ℝ) - y| = y - n := by rw [abs_sub_comm, abs_of_nonneg (by linarith)]
    exact ⟨by rw [h]; linarith, fun h' => by rw [h] at h'; linarith⟩
  · have h : |((n + 1 : ℕ) : ℝ) - y| = n + 1 - y := by rw [Nat.cast_add_one, abs_of_nonneg (by linarith)]
    exact ⟨by rw [h]; linarith, fun h' => by rw [h] at h'; linarith⟩
  · have h : |(n : ℝ) - y| = y - n := by rw [abs_sub_comm, abs_of_nonneg (by linarith)]
    exact ⟨by rw [h]; linarith, fun _ => h5⟩
  · have h : |((n + 1 : ℕ) : ℝ) - y| = n + 1 - y := by rw [Nat.cast_add_one, abs_of_nonneg (by linarith)]
    exact ⟨by rw [h]; linarith, fun _ => by omega⟩

theorem Closest.mono {y z : ℝ} {n m : Nat} (hn : Closest y n) (hm : Closest z m) (h : y ≤ z) : n ≤ m := by
  by_contra hc
  have hc' : (m : ℝ) + 1 ≤ n := by exact_mod_cast Nat.succ_le_of_lt (not_le.mp hc)
  have h1 := abs_le.mp hn.1
  have h2 := abs_le.mp hm.1
  have e1 : |(n : ℝ) - y| = 1 / 2 := by rw [abs_of_nonneg (by linarith)]; linarith
  have e2 : |(m : ℝ) - z| = 1 / 2 := by rw [abs_sub_comm, abs_of_nonneg (by linarith)]; linarith
  have h3 := hn.2 e1
  have h4 := hm.2 e2
  have : (n : ℝ) = m + 1 := by linarith
  have : n = m + 1 := by exact_mod_cast this
  omega

theorem Closest.unique {y : ℝ} {n m : Nat} (hn : Closest y n) (hm : Closest y m) : n = m :=
  le_antisymm (hn.mono hm le_rfl) (hm.mono hn le_rfl)

theorem lastDigits_length : ∀ w n, (lastDigits w n).length = w
  | 0, _ => rfl
  | w + 1, n => by rw [lastDigits, List.length_append, lastDigits_length w]; rfl

theorem digitChar_digit {n : Nat} (h : n < 10) : (Nat.digitChar n).isDigit = true ∧ (Nat.digitChar n).toNat = n + 48 := by
  interval_cases n <;> exact ⟨rfl, rfl⟩

theorem lastDigits_digits : ∀ w n, ∀ c ∈ lastDigits w n, c.isDigit = true
  | 0, _, c, h => by simp [lastDigits] at h
  | w + 1, n, c, h => by
    rw [lastDigits] at h
    rcases List.mem_append.mp h with h | h
    · exact lastDigits_digits w _ c h
    · rw [List.mem_singleton] at h
      subst h
      exact (digitChar_digit (Nat.mod_lt _ (by omega))).1

theorem lastDigits_value : ∀ w n a, Nat.ofDigitChars 10 (lastDigits w n) a = a * 10 ^ w + n % 10 ^ w
  | 0, n, a => by simp [lastDigits, Nat.mod_one]
  | w + 1, n, a => by
    rw [lastDigits, Nat.ofDigitChars_append, lastDigits_value w, Nat.ofDigitChars_cons, Nat.ofDigitChars_nil]
    have h := (digitChar_digit (n := n % 10) (Nat.mod_lt _ (by omega))).2
    have h0 : '0'.toNat = 48 := rfl
    rw [h, h0, Nat.add_sub_cancel]
    have h2 : n % 10 ^ (w + 1) = n % 10 + 10 * (n / 10 % 10 ^ w) := by
      rw [pow_succ', Nat.mod_mul]
    rw [h2]; ring

theorem lastDigits_unique : ∀ w {d : List Char}, d.length = w → (∀ c ∈ d, c.isDigit = true) → ∀ a, lastDigits w (a * 10 ^ w + Nat.ofDigitChars 10 d 0) = d := by
  intro w
  induction w with
  | zero =>
    intro d h _ a
    rw [List.length_eq_zero_iff.mp h]; rfl
  | succ w ih =>
    intro d h hd a
    obtain ⟨l, c, rfl⟩ : ∃ l c, d = l ++ [c] := by
      rcases List.eq_nil_or_concat d with rfl | ⟨l, c, h⟩
      · simp at h
      · exact ⟨l, c, by rw [h, List.concat_eq_append]⟩
    have hl : l.length = w := by simpa using h
    have hc := hd c (by simp)
    obtain ⟨hc1, hc2⟩ := digit_code hc
    have hcn : Nat.digitChar (c.toNat - 48) = c := by
      have : c = Char.ofNat c.toNat := (Char.ofNat_toNat c).symm
      generalize c.toNat = m at *
      subst this
      interval_cases m <;> rfl
    have hv : Nat.ofDigitChars 10 (l ++ [c]) 0 = 10 * Nat.ofDigitChars 10 l 0 + (c.toNat - 48) := by
      simp [Nat.ofDigitChars, List.foldl_append]
    rw [hv, lastDigits]
    have e : a * 10 ^ (w + 1) + (10 * Nat.ofDigitChars 10 l 0 + (c.toNat - 48)) =
        10 * (a * 10 ^ w + Nat.ofDigitChars 10 l 0) + (c.toNat - 48) := by rw [pow_succ]; ring
    have hlt : c.toNat - 48 < 10 := by omega
    rw [e, Nat.mul_add_mod, Nat.mod_eq_of_lt hlt, hcn]
    have e2 : (10 * (a * 10 ^ w + Nat.ofDigitChars 10 l 0) + (c.toNat - 48)) / 10 = a * 10 ^ w + Nat.ofDigitChars 10 l 0 := by omega
    rw [e2, ih hl (fun c hc => hd c (by simp [hc])) a]

/-- The text for a number of hundred millionths. -/
def text (neg : Bool) (n : Nat) : List Char := (if neg then ['-'] else []) ++ (Nat.toDigits 10 (n / 10 ^ 8) ++ '.' :: lastDigits 8 n)

theorem fixed_text (r : ℝ) : fixed r = text (decide (r < 0)) (roundEven (|r| * 10 ^ 8)) := by
  rw [fixed, text]
  simp

theorem text_point (neg : Bool) (n : Nat) : FixedPoint (text neg n) neg n := by
  refine ⟨_, _, rfl, (digits_nat _).1, (digits_nat _).2, ⟨?_, lastDigits_digits 8 n⟩, lastDigits_length 8 n, ?_⟩
  · intro h
    have := lastDigits_length 8 n
    rw [h] at this
    simp at this
  · rw [Nat.ofDigitChars_append, Nat.ofDigitChars_ten_toDigits, lastDigits_value, Nat.mul_comm]
    exact (Nat.div_add_mod n (10 ^ 8)).symm

theorem point_text {t : List Char} {neg : Bool} {n : Nat} (h : FixedPoint t neg n) : t = text neg n := by
  obtain ⟨w, d, rfl, hw, hw0, hd, hl, rfl⟩ := h
  have hv : Nat.ofDigitChars 10 (w ++ d) 0 = Nat.ofDigitChars 10 w 0 * 10 ^ 8 + Nat.ofDigitChars 10 d 0 := by
    rw [Nat.ofDigitChars_append, Nat.ofDigitChars_eq_ofDigitChars_zero, hl, Nat.mul_comm]
  have hlt : Nat.ofDigitChars 10 d 0 < 10 ^ 8 := by
    have h1 := lastDigits_unique 8 hl hd.2 0
    have h2 := lastDigits_value 8 (0 * 10 ^ 8 + Nat.ofDigitChars 10 d 0) 0
    rw [h1] at h2
    have := Nat.mod_lt (0 * 10 ^ 8 + Nat.ofDigitChars 10 d 0) (show 0 < 10 ^ 8 by norm_num)
    omega
  rw [hv, text, lastDigits_unique 8 hl hd.2]
  have hq : (Nat.ofDigitChars 10 w 0 * 10 ^ 8 + Nat.ofDigitChars 10 d 0) / 10 ^ 8 = Nat.ofDigitChars 10 w 0 := by omega
  rw [hq, toDigits_ofDigitChars hw hw0]

theorem text_no_newline (neg : Bool) (n : Nat) : '\n' ∉ text neg n := by
  intro h
  rw [text] at h
  rcases List.mem_append.mp h with h | h
  · cases neg <;> simp at h
  · rcases List.mem_append.mp h with h | h
    · exact absurd ((digits_nat _).1.2 _ h) (by decide)
    · rcases List.mem_cons.mp h with h | h
      · exact absurd h (by decide)
      · exact absurd (lastDigits_digits _ _ _ h) (by decide)

theorem number_no_newline (v : Flt) : '\n' ∉ number v := by
  cases v with
  | fin r => rw [number, fixed_text]; exact text_no_newline _ _
  | pinf => decide
  | ninf => decide
  | nan => decide

/-- Up to a character that cannot occur, a text is read uniquely. -/
theorem split_at {c : Char} : ∀ {a b r s : List Char}, c ∉ a → c ∉ b → a ++ c :: r = b ++ c :: s → a = b ∧ r = s
  | [], [], r, s, _, _, h => by simpa using h
  | [], y :: b, r, s, _, hb, h => by
    simp only [List.nil_append, List.cons_append, List.cons.injEq] at h
    exact absurd (by rw [h.1]; simp) hb
  | x :: a, [], r, s, ha, _, h => by
    simp only [List.nil_append, List.cons_append, List.cons.injEq] at h
    exact absurd (by rw [h.1]; simp) ha
  | x :: a, y :: b, r, s, ha, hb, h => by
    simp only [List.cons_append, List.cons.injEq] at h
    obtain ⟨h1, h2⟩ := split_at (fun h => ha (by simp [h])) (fun h => hb (by simp [h])) h.2
    exact ⟨by rw [h.1, h1], h2⟩

theorem line_split {e f : Nat × Flt} {r s : List Char} (h : line e ++ r = line f ++ s) : e.1 = f.1 ∧ number e.2 = number f.2 ∧ r = s := by
  simp only [line, List.append_assoc, List.append_cancel_left_eq] at h
  have hd : ∀ n, ':' ∉ Nat.toDigits 10 n := fun n h => absurd ((digits_nat n).1.2 _ h) (by decide)
  simp only [List.cons_append, List.nil_append] at h
  obtain ⟨h1, h2⟩ := split_at (hd _) (hd _) h
  simp only [List.cons.injEq, true_and] at h2
  obtain ⟨h3, h4⟩ := split_at (number_no_newline _) (number_no_newline _) h2
  refine ⟨?_, h3, h4⟩
  rw [← Nat.ofDigitChars_ten_toDigits (n := e.1), h1, Nat.ofDigitChars_ten_toDigits]

theorem output_inj : ∀ {l m : List (Nat × Flt)}, output l = output m → l.map (fun e => (e.1, number e.2)) = m.map (fun e => (e.1, number e.2))
  | [], [], _ => rfl
  | [], f :: m, h => by simp [output, line] at h
  | e :: l, [], h => by simp [output, line] at h
  | e :: l, f :: m, h => by
    simp only [output, List.flatMap_cons] at h
    obtain ⟨h1, h2, h3⟩ := line_split h
    rw [List.map_cons, List.map_cons, output_inj h3, h1, h2]

theorem said_closest {r : ℝ} {n : Nat} : Closest (|r| * 10 ^ 8) n ↔
    |said (decide (r < 0)) n - r| ≤ 1 / 2 / 10 ^ 8 ∧ (|said (decide (r < 0)) n - r| = 1 / 2 / 10 ^ 8 → n % 2 = 0) := by
  have key : |said (decide (r < 0)) n - r| = |(n : ℝ) - |r| * 10 ^ 8| / 10 ^ 8 := by
    have h10 : (0 : ℝ) < 10 ^ 8 := by norm_num
    by_cases h : r < 0
    · rw [said, decide_eq_true h, if_pos rfl, abs_of_neg h, ← abs_neg ((n : ℝ) - _), ← abs_of_pos h10, ← abs_div, abs_of_pos h10]
      congr 1
      field_simp
      ring
    · rw [said, decide_eq_false h, if_neg (by simp), abs_of_nonneg (not_lt.mp h), ← abs_of_pos h10, ← abs_div, abs_of_pos h10]
      congr 1
      field_simp
  rw [key, Closest]
  have h10 : (0 : ℝ) < 10 ^ 8 := by norm_num
  rw [div_le_div_iff_of_pos_right h10, div_left_inj' h10.ne']

end PrintText
end Paragami
