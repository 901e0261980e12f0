import Verif.Spec.JsonText
import Mathlib.Tactic.IntervalCases

/-! # Reading JSON texts: lemmas -/

set_option linter.unusedSimpArgs false

namespace Paragami
namespace JsonText
open Spec

/-! ### White space and digits -/

theorem isWs_iff {c : Char} : isWs c = true ↔ c = ' ' ∨ c = '\t' ∨ c = '\n' ∨ c = '\r' := by
  simp [isWs, or_assoc]

theorem skip_ws {w t : List Char} (h : Ws w) : skip (w ++ t) = skip t := by
  induction w with
  | nil => rfl
  | cons c w ih =>
    have hc : isWs c = true := isWs_iff.mpr (h c (by simp))
    rw [skip, List.cons_append, List.dropWhile_cons, if_pos hc]
    exact ih fun d hd => h d (by simp [hd])

theorem skip_cons {c : Char} {t : List Char} (h : isWs c = false) : skip (c :: t) = c :: t := by
  rw [skip, List.dropWhile_cons, if_neg (by simp [h])]

theorem skip_ws_cons {w t : List Char} {c : Char} (hw : Ws w) (h : isWs c = false) : skip (w ++ c :: t) = c :: t := by
  rw [skip_ws hw, skip_cons h]

theorem skip_all {w : List Char} (h : Ws w) : skip w = [] := by
  have := skip_ws (t := []) h
  rwa [List.append_nil] at this

theorem length_skip (t : List Char) : (skip t).length ≤ t.length := (List.dropWhile_sublist _).length_le

theorem take_digits {P : Char → Bool} {d r : List Char} (hd : ∀ c ∈ d, P c = true) (hr : ∀ c ∈ r.head?, P c = false) :
    (d ++ r).takeWhile P = d ∧ (d ++ r).dropWhile P = r := by
  induction d with
  | nil =>
    cases r with
    | nil => exact ⟨rfl, rfl⟩
    | cons c r =>
      have : P c = false := hr c (by simp)
      simp [List.takeWhile_cons, List.dropWhile_cons, this]
  | cons c d ih =>
    have hc : P c = true := hd c (by simp)
    obtain ⟨h1, h2⟩ := ih fun x hx => hd x (by simp [hx])
    simp [List.takeWhile_cons, List.dropWhile_cons, hc, h1, h2]

theorem digit_code {c : Char} (h : c.isDigit = true) : 48 ≤ c.toNat ∧ c.toNat ≤ 57 := by
  simp only [Char.isDigit, Bool.and_eq_true, decide_eq_true_eq] at h
  exact ⟨h.1, h.2⟩

theorem digit_ne' {c d : Char} (h : c.isDigit = true) (hd : d.isDigit = false) : c ≠ d := by
  rintro rfl; rw [h] at hd; cases hd

theorem digit_ws {c : Char} (h : c.isDigit = true) : isWs c = false := by
  rw [Bool.eq_false_iff]
  intro hc
  rcases isWs_iff.mp hc with rfl | rfl | rfl | rfl <;> exact absurd h (by decide)

/-! ### Numbers -/

/-- The character after a number does not belong to it. -/
def Stop (r : List Char) : Prop := ∀ c ∈ r.head?, c.isDigit = false ∧ c ≠ '.' ∧ c ≠ 'e' ∧ c ≠ 'E'

theorem stop_nil : Stop [] := fun c hc => by simp at hc

theorem stop_cons {c : Char} {r : List Char} (h : c.isDigit = false ∧ c ≠ '.' ∧ c ≠ 'e' ∧ c ≠ 'E') : Stop (c :: r) := by
  intro d hd
  simp only [List.head?_cons, Option.mem_def, Option.some.injEq] at hd
  exact hd ▸ h

theorem stop_ws {w : List Char} {c : Char} {r : List Char} (hw : Ws w) (h : c.isDigit = false ∧ c ≠ '.' ∧ c ≠ 'e' ∧ c ≠ 'E') :
    Stop (w ++ c :: r) := by
  cases w with
  | nil => exact stop_cons h
  | cons d w =>
    refine stop_cons ?_
    rcases hw d (by simp) with rfl | rfl | rfl | rfl <;> decide

theorem natPart_digits {d r : List Char} (hd : DecDigits d) (h0 : d = ['0'] ∨ d.head? ≠ some '0') (hr : ∀ c ∈ r.head?, c.isDigit = false) :
    natPart (d ++ r) = some (d, r) := by
  obtain ⟨hne, hall⟩ := hd
  cases d with
  | nil => exact absurd rfl hne
  | cons c l =>
    by_cases hc : c = '0'
    · subst hc
      rcases h0 with h | h
      · injection h with _ h
        subst h
        simp [natPart]
      · simp at h
    · have h1 : c.isDigit = true := hall c (by simp)
      obtain ⟨h2, h3⟩ := take_digits (P := Char.isDigit) (d := l) (r := r) (fun x hx => hall x (by simp [hx])) hr
      simp only [natPart, List.cons_append, hc, if_false, h1, if_true, h2, h3]

theorem intPart_syntax {a r : List Char} (ha : IntSyntax a) (hr : ∀ c ∈ r.head?, c.isDigit = false) : intPart (a ++ r) = some (a, r) := by
  obtain ⟨sg, d, rfl, hs, hd, h0⟩ := ha
  have h := natPart_digits hd h0 hr
  rcases hs with rfl | rfl
  · obtain ⟨hne, hall⟩ := hd
    cases d with
    | nil => exact absurd rfl hne
    | cons c l =>
      have hc : c ≠ '-' := digit_ne' (hall c (by simp)) (by decide)
      simp only [intPart, List.nil_append, List.cons_append, hc, if_false]
      exact h
  · simp only [intPart, List.cons_append, List.nil_append, if_true, h, Option.map_some]

theorem fracPart_none {t : List Char} (h : ∀ c ∈ t.head?, c ≠ '.') : fracPart t = ([], t) := by
  cases t with
  | nil => rfl
  | cons c t => simp only [fracPart]; rw [if_neg]; exact fun hc => h c (by simp) hc.1

theorem fracPart_digits {d r : List Char} (hd : DecDigits d) (hr : ∀ c ∈ r.head?, c.isDigit = false) :
    fracPart ('.' :: (d ++ r)) = ('.' :: d, r) := by
  obtain ⟨h1, h2⟩ := take_digits (P := Char.isDigit) hd.2 hr
  simp only [fracPart, h1, h2]
  rw [if_pos ⟨trivial, hd.1⟩]

theorem expPart_none {t : List Char} (h : ∀ c ∈ t.head?, c ≠ 'e' ∧ c ≠ 'E') : expPart t = ([], t) := by
  cases t with
  | nil => rfl
  | cons c t =>
    simp only [expPart]
    rw [if_neg]
    rintro ⟨hc | hc, -⟩
    · exact (h c (by simp)).1 hc
    · exact (h c (by simp)).2 hc

theorem signPart_sign {sg d r : List Char} (hs : sg = [] ∨ sg = ['-'] ∨ sg = ['+']) (hd : DecDigits d) : signPart (sg ++ (d ++ r)) = (sg, d ++ r) := by
  rcases hs with rfl | rfl | rfl
  · obtain ⟨hne, hall⟩ := hd
    cases d with
    | nil => exact absurd rfl hne
    | cons c l =>
      have h1 : c ≠ '-' := digit_ne' (hall c (by simp)) (by decide)
      have h2 : c ≠ '+' := digit_ne' (hall c (by simp)) (by decide)
      simp [signPart, h1, h2]
  · simp [signPart]
  · simp [signPart]

theorem expPart_digits {c : Char} {sg d r : List Char} (hc : c = 'e' ∨ c = 'E') (hs : sg = [] ∨ sg = ['-'] ∨ sg = ['+']) (hd : DecDigits d)
    (hr : ∀ c ∈ r.head?, c.isDigit = false) : expPart (c :: (sg ++ (d ++ r))) = (c :: (sg ++ d), r) := by
  obtain ⟨h1, h2⟩ := take_digits (P := Char.isDigit) hd.2 hr
  simp only [expPart, signPart_sign hs hd, h1, h2]
  rw [if_pos ⟨hc, hd.1⟩]

theorem number_float (F : FloatText) {t r : List Char} (ht : FloatSyntax t) (hr : Stop r) :
    number F (t ++ r) = some (.num (.flt (F.float t)), r) := by
  obtain ⟨a, f, e, rfl, ha, hf, he, hn⟩ := ht
  have hrd : ∀ c ∈ r.head?, c.isDigit = false := fun c hc => (hr c hc).1
  have hed : ∀ c ∈ (e ++ r).head?, c.isDigit = false ∧ c ≠ '.' := by
    rcases he with rfl | ⟨c, sg, d, rfl, hc, -, -⟩
    · exact fun c hc => ⟨(hr c hc).1, (hr c hc).2.1⟩
    · intro x hx
      simp only [List.cons_append, List.head?_cons, Option.mem_def, Option.some.injEq] at hx
      subst hx
      rcases hc with rfl | rfl <;> decide
  have hfd : ∀ c ∈ (f ++ (e ++ r)).head?, c.isDigit = false := by
    rcases hf with rfl | ⟨d, rfl, -⟩
    · exact fun c hc => (hed c hc).1
    · intro x hx
      simp only [List.cons_append, List.head?_cons, Option.mem_def, Option.some.injEq] at hx
      subst hx; decide
  have h1 : intPart (a ++ f ++ e ++ r) = some (a, f ++ (e ++ r)) := by
    rw [List.append_assoc, List.append_assoc, ← List.append_assoc f]
    have := intPart_syntax ha hfd
    rwa [List.append_assoc]
  have h2 : fracPart (f ++ (e ++ r)) = (f, e ++ r) := by
    rcases hf with rfl | ⟨d, rfl, hd⟩
    · exact fracPart_none fun c hc => (hed c hc).2
    · exact fracPart_digits hd fun c hc => (hed c hc).1
  have h3 : expPart (e ++ r) = (e, r) := by
    rcases he with rfl | ⟨c, sg, d, rfl, hc, hs, hd⟩
    · exact expPart_none fun c hc => (hr c hc).2.2
    · rw [List.cons_append, List.append_assoc]
      exact expPart_digits hc hs hd hrd
  simp only [number, h1, Option.map_some, h2, h3]
  rw [if_neg]
  rintro ⟨rfl, rfl⟩
  simp at hn

theorem intText_eq (i : ℤ) : intText i = (toString i).toList := by
  cases i with
  | ofNat n =>
    change _ = (Nat.repr n).toList
    rw [Nat.toList_repr]; rfl
  | negSucc n =>
    change _ = ("-" ++ Nat.repr (n + 1)).toList
    rw [String.toList_append, Nat.toList_repr]; rfl

theorem digits_nat (n : Nat) : DecDigits (Nat.toDigits 10 n) ∧ (Nat.toDigits 10 n = ['0'] ∨ (Nat.toDigits 10 n).head? ≠ some '0') := by
  refine ⟨⟨Nat.toDigits_ne_nil, fun c hc => Nat.isDigit_of_mem_toDigits (by omega) (by omega) hc⟩, ?_⟩
  induction n using Nat.strong_induction_on with
  | _ n ih =>
    by_cases h : n < 10
    · rw [Nat.toDigits_of_lt_base h]
      interval_cases n <;> simp
    · rw [Nat.toDigits_of_base_le (by omega) (by omega)]
      right
      rcases ih (n / 10) (by omega) with h1 | h1
      · have h2 := Nat.ofDigitChars_ten_toDigits (n := n / 10)
        rw [h1] at h2
        have : (0 : ℕ) = n / 10 := by rw [← h2]; rfl
        omega
      · rw [List.head?_append_of_ne_nil _ Nat.toDigits_ne_nil]
        exact h1

theorem int_syntax (i : ℤ) : IntSyntax (intText i) := by
  cases i with
  | ofNat n => exact ⟨[], _, rfl, .inl rfl, (digits_nat n).1, (digits_nat n).2⟩
  | negSucc n => exact ⟨['-'], _, rfl, .inr rfl, (digits_nat _).1, (digits_nat _).2⟩

theorem intVal_intText (i : ℤ) : intVal (intText i) = i := by
  cases i with
  | ofNat n =>
    have h := (digits_nat n).1
    have h1 := Nat.ofDigitChars_ten_toDigits (n := n)
    simp only [intText]
    cases hd : Nat.toDigits 10 n with
    | nil => exact absurd hd h.1
    | cons c l =>
      have hc : c ≠ '-' := digit_ne' (h.2 c (by simp [hd])) (by decide)
      simp only [intVal, hc, if_false]
      rw [← hd, h1]; rfl
  | negSucc n =>
    simp only [intText, intVal, if_true, Nat.ofDigitChars_ten_toDigits]
    rfl

theorem number_int (F : FloatText) (i : ℤ) {r : List Char} (hr : Stop r) : number F (intText i ++ r) = some (.num (.int i), r) := by
  have h1 := intPart_syntax (int_syntax i) (r := r) fun c hc => (hr c hc).1
  have h2 := fracPart_none (t := r) fun c hc => (hr c hc).2.1
  have h3 := expPart_none (t := r) fun c hc => (hr c hc).2.2
  simp [number, h1, h2, h3, intVal_intText]

theorem int_head {a r : List Char} (ha : IntSyntax a) : ∃ c t, a ++ r = c :: t ∧ (c.isDigit = true ∨ c = '-') := by
  obtain ⟨sg, d, rfl, hs, ⟨hne, hall⟩, -⟩ := ha
  rcases hs with rfl | rfl
  · cases d with
    | nil => exact absurd rfl hne
    | cons c l => exact ⟨c, l ++ r, rfl, .inl (hall c (by simp))⟩
  · exact ⟨'-', d ++ r, rfl, .inr rfl⟩

/-! ### Strings -/

theorem hexVal_digit {c : Char} {n : Nat} (h : HexDigit c n) : hexVal c = some n := by
  obtain ⟨h, rfl | rfl⟩ := h <;> interval_cases n <;> rfl

theorem hex4_hex {h : List Char} {n : Nat} (H : Hex4 h n) (t : List Char) : hex4 (h ++ t) = .ok (n, t) := by
  obtain ⟨c1, c2, c3, c4, n1, n2, n3, n4, rfl, h1, h2, h3, h4, rfl⟩ := H
  simp only [List.cons_append, List.nil_append, hex4, hexVal_digit h1, hexVal_digit h2, hexVal_digit h3, hexVal_digit h4]

theorem hex4_u4 {n : Nat} (h : n < 65536) : ∃ l, u4 n = '\\' :: 'u' :: l ∧ Hex4 l n := by
  refine ⟨_, rfl, _, _, _, _, n / 4096 % 16, n / 256 % 16, n / 16 % 16, n % 16, rfl, ⟨?_, .inl rfl⟩, ⟨?_, .inl rfl⟩, ⟨?_, .inl rfl⟩,
    ⟨?_, .inl rfl⟩, ?_⟩ <;> omega

theorem hex4_four {h : List Char} {n : Nat} (H : Hex4 h n) : h.length = 4 := by
  obtain ⟨c1, c2, c3, c4, n1, n2, n3, n4, rfl, -⟩ := H; rfl

theorem valid_code (c : Char) : c.toNat < 55296 ∨ 57343 < c.toNat ∧ c.toNat < 1114112 := by
  have := c.valid
  simp only [UInt32.isValidChar, Nat.isValidChar] at this
  exact this

theorem ofNat_code {c : Char} {n : Nat} (h : n = c.toNat) : Char.ofNat n = c := by
  subst h; exact Char.ofNat_toNat c

theorem escape_short {d c : Char} (h : (d, c) ∈ shorts) (t : List Char) : escape (d :: t) = .ok (some c, t) := by
  simp only [shorts, List.mem_cons, Prod.mk.injEq, List.not_mem_nil, or_false] at h
  rcases h with ⟨rfl, rfl⟩ | ⟨rfl, rfl⟩ | ⟨rfl, rfl⟩ | ⟨rfl, rfl⟩ | ⟨rfl, rfl⟩ | ⟨rfl, rfl⟩ | ⟨rfl, rfl⟩ | ⟨rfl, rfl⟩ <;>
    simp only [escape] <;> rfl

theorem escape_code {h : List Char} {c : Char} (H : Hex4 h c.toNat) (t : List Char) : escape ('u' :: (h ++ t)) = .ok (some c, t) := by
  have hv := valid_code c
  simp only [escape, if_true, unicode, hex4_hex H, bind, Except.bind]
  rw [if_neg (by omega), if_neg (by omega), ofNat_code rfl]

theorem escape_pair {h h' : List Char} {a b : Nat} {c : Char} (H : Hex4 h (0xD800 + a)) (H' : Hex4 h' (0xDC00 + b)) (ha : a < 1024) (hb : b < 1024)
    (hc : c.toNat = 0x10000 + (a * 1024 + b)) (t : List Char) : escape ('u' :: (h ++ '\\' :: 'u' :: (h' ++ t))) = .ok (some c, t) := by
  simp only [escape, if_true, unicode, hex4_hex H, hex4_hex H', bind, Except.bind]
  rw [if_pos (by omega), if_pos (by omega), ofNat_code]
  omega

theorem scan_escape {e t r s : List Char} {c : Char} {n : Nat} (he : escape (e ++ t) = .ok (some c, t)) (h : scanString n t = .ok (s, r)) :
    scanString (n + 1) ('\\' :: (e ++ t)) = .ok (c :: s, r) := by
  simp only [scanString, (by decide : ('\\' : Char) ≠ '"'), if_false, if_true, he, h, bind, Except.bind, pure, Except.pure]

theorem scan_writes {s t : List Char} (h : WritesStr s t) : ∀ {n : Nat} {r : List Char}, t.length + 1 ≤ n →
    scanString n (t ++ '"' :: r) = .ok (s, r) := by
  induction h with
  | nil =>
    intro n r hn
    obtain ⟨m, rfl⟩ : ∃ m, n = m + 1 := ⟨n - 1, by simp at hn; omega⟩
    simp [scanString]
  | @plain c s t h1 h2 h3 _ ih =>
    intro n r hn
    obtain ⟨m, rfl⟩ : ∃ m, n = m + 1 := ⟨n - 1, by simp at hn; omega⟩
    have := ih (n := m) (r := r) (by simp at hn; omega)
    simp only [List.cons_append, scanString, h1, h2, if_false, this, bind, Except.bind, pure, Except.pure]
    rw [if_neg (by omega)]
  | @short d c s t hd _ ih =>
    intro n r hn
    obtain ⟨m, rfl⟩ : ∃ m, n = m + 1 := ⟨n - 1, by simp at hn; omega⟩
    exact scan_escape (e := [d]) (escape_short hd _) (ih (n := m) (r := r) (by simp at hn; omega))
  | @code h c s t H _ ih =>
    intro n r hn
    obtain ⟨m, rfl⟩ : ∃ m, n = m + 1 := ⟨n - 1, by simp at hn; omega⟩
    have := scan_escape (e := 'u' :: h) (escape_code H _) (ih (n := m) (r := r) (by simp at hn; omega))
    simpa using this
  | @pair h h' a b c s t H H' ha hb hc _ ih =>
    intro n r hn
    obtain ⟨m, rfl⟩ : ∃ m, n = m + 1 := ⟨n - 1, by simp at hn; omega⟩
    have := scan_escape (e := 'u' :: (h ++ '\\' :: 'u' :: h')) (by simpa using escape_pair H H' ha hb hc (t ++ '"' :: r))
      (ih (n := m) (r := r) (by simp at hn; omega))
    simpa using this

/-- Reading a string that follows its opening quotation mark. -/
theorem scan_str {s t r : List Char} (h : WritesStr s t) : scanString (t ++ '"' :: r).length (t ++ '"' :: r) = .ok (s, r) :=
  scan_writes h (by simp)

theorem writesStr_esc_cons {c : Char} {s t : List Char} (h : WritesStr s t) : WritesStr (c :: s) (esc c ++ t) := by
  by_cases h1 : c = '"'
  · subst h1; exact .short (d := '"') (by simp [shorts]) h
  by_cases h2 : c = '\\'
  · subst h2; exact .short (d := '\\') (by simp [shorts]) h
  by_cases h3 : c = '\n'
  · subst h3; exact .short (d := 'n') (by simp [shorts]) h
  by_cases h4 : c = '\r'
  · subst h4; exact .short (d := 'r') (by simp [shorts]) h
  by_cases h5 : c = '\t'
  · subst h5; exact .short (d := 't') (by simp [shorts]) h
  by_cases h6 : c.toNat = 12
  · have e : Char.ofNat 12 = c := ofNat_code h6.symm
    have := WritesStr.short (d := 'f') (c := c) (by rw [← e]; simp [shorts]) h
    simpa [esc, h1, h2, h3, h4, h5, h6] using this
  by_cases h7 : c.toNat = 8
  · have e : Char.ofNat 8 = c := ofNat_code h7.symm
    have := WritesStr.short (d := 'b') (c := c) (by rw [← e]; simp [shorts]) h
    simpa [esc, h1, h2, h3, h4, h5, h6, h7] using this
  by_cases h8 : 32 ≤ c.toNat ∧ c.toNat ≤ 126
  · have := WritesStr.plain h1 h2 h8.1 h
    simpa [esc, h1, h2, h3, h4, h5, h6, h7, h8] using this
  have hv := valid_code c
  by_cases h9 : c.toNat < 65536
  · obtain ⟨l, hl, H⟩ := hex4_u4 h9
    have := WritesStr.code H h
    simpa only [esc, h1, h2, h3, h4, h5, h6, h7, h8, h9, if_false, if_true, hl, List.cons_append] using this
  · obtain ⟨l, hl, H⟩ := hex4_u4 (n := 55296 + (c.toNat - 65536) / 1024) (by omega)
    obtain ⟨l', hl', H'⟩ := hex4_u4 (n := 56320 + (c.toNat - 65536) % 1024) (by omega)
    have := WritesStr.pair (c := c) H H' (by omega) (by omega) (by omega) h
    simpa only [esc, h1, h2, h3, h4, h5, h6, h7, h8, h9, if_false, hl, hl', List.cons_append, List.append_assoc] using this

theorem writesStr_esc (s : List Char) : WritesStr s (s.flatMap esc) := by
  induction s with
  | nil => exact .nil
  | cons c s ih => rw [List.flatMap_cons]; exact writesStr_esc_cons ih

/-! ### Dictionaries -/

theorem assign_new {fs : List (String × PyVal)} {k : String} {v : PyVal} (h : k ∉ fs.map (·.1)) : assign fs k v = fs ++ [(k, v)] := by
  induction fs with
  | nil => rfl
  | cons f fs ih =>
    obtain ⟨k', v'⟩ := f
    simp only [List.map_cons, List.mem_cons, not_or] at h
    simp only [assign, Ne.symm h.1, if_false, List.cons_append, ih h.2]

theorem foldl_assign : ∀ (fs acc : List (String × PyVal)), ((acc ++ fs).map (·.1)).Nodup →
    fs.foldl (fun d f => assign d f.1 f.2) acc = acc ++ fs
  | [], acc, _ => by simp
  | (k, v) :: fs, acc, h => by
    rw [List.foldl_cons, assign_new, foldl_assign fs _ (by simpa using h)]
    · simp
    · rw [List.map_append, List.nodup_append] at h
      exact fun hk => h.2.2 k hk k (by simp) rfl

theorem pyDict_nodup {fs : List (String × PyVal)} (h : (fs.map (·.1)).Nodup) : pyDict fs = fs := foldl_assign fs [] h

theorem assign_old {fs : List (String × PyVal)} {k : String} {v : PyVal} (h : k ∈ fs.map (·.1)) : (assign fs k v).map (·.1) = fs.map (·.1) := by
  induction fs with
  | nil => simp at h
  | cons f fs ih =>
    obtain ⟨k', v'⟩ := f
    simp only [assign]
    split_ifs with hk
    · simp [hk]
    · simp only [List.map_cons, List.mem_cons] at h
      simp only [List.map_cons, ih (h.resolve_left fun h => hk h.symm)]

theorem lookup_cons_if (fs : List (String × PyVal)) (k k' : String) (v : PyVal) :
    ((k, v) :: fs).lookup k' = if k' = k then some v else fs.lookup k' := by
  rw [List.lookup_cons]
  by_cases h : k' = k
  · simp [h]
  · have : (k' == k) = false := by simp [h]
    simp only [this, h, if_false]

theorem assign_lookup (fs : List (String × PyVal)) (k k' : String) (v : PyVal) :
    (assign fs k v).lookup k' = if k' = k then some v else fs.lookup k' := by
  induction fs with
  | nil => exact lookup_cons_if [] k k' v
  | cons f fs ih =>
    obtain ⟨k0, v0⟩ := f
    simp only [assign]
    by_cases h0 : k0 = k
    · subst h0
      simp only [if_true, lookup_cons_if]
      split_ifs <;> rfl
    · simp only [h0, if_false, lookup_cons_if, ih]
      split_ifs with h1 h2
      · exact absurd (h1.symm.trans h2) h0
      · rfl
      · rfl
      · rfl

theorem updated_pyDict (fs : List (String × PyVal)) : Updated fs (pyDict fs) := by
  induction fs using List.reverseRecOn with
  | nil => exact ⟨rfl, fun _ => rfl⟩
  | append_singleton fs f ih =>
    obtain ⟨k, v⟩ := f
    obtain ⟨h1, h2⟩ := ih
    have he : pyDict (fs ++ [(k, v)]) = assign (pyDict fs) k v := by simp [pyDict, List.foldl_append]
    constructor
    · rw [he, List.map_append, List.reverse_append, List.map_singleton, List.reverse_singleton, List.singleton_append]
      by_cases hk : k ∈ (fs.map (·.1)).reverse
      · rw [List.dedup_cons_of_mem hk, assign_old, h1]
        rw [h1]; simpa using hk
      · rw [List.dedup_cons_of_notMem hk, List.reverse_cons, ← h1, assign_new]
        · simp
        · rw [h1]; simpa using hk
    · intro k'
      rw [he, assign_lookup, List.reverse_append, List.reverse_singleton, List.singleton_append, lookup_cons_if, h2]

theorem lookup_ext : ∀ {fs gs : List (String × PyVal)}, (fs.map (·.1)).Nodup → fs.map (·.1) = gs.map (·.1) → (∀ k, fs.lookup k = gs.lookup k) → fs = gs
  | [], gs, _, h, _ => by simpa using h.symm
  | (k, v) :: fs, [], _, h, _ => by simp at h
  | (k, v) :: fs, (k', v') :: gs, hn, h, hl => by
    simp only [List.map_cons, List.cons.injEq, List.nodup_cons] at h hn
    obtain ⟨rfl, h⟩ := h
    have hv := hl k
    simp only [List.lookup_cons, beq_self_eq_true, Option.some.injEq] at hv
    subst hv
    rw [lookup_ext hn.2 h]
    intro x
    by_cases hx : x = k
    · subst hx
      have e1 : fs.lookup x = none := List.lookup_eq_none_iff.mpr fun p hp => by
        simp only [bne_iff_ne, ne_eq, beq_eq_false_iff_ne]
        rintro rfl; exact hn.1 (List.mem_map_of_mem hp)
      have e2 : gs.lookup x = none := List.lookup_eq_none_iff.mpr fun p hp => by
        simp only [bne_iff_ne, ne_eq, beq_eq_false_iff_ne]
        rintro rfl; exact hn.1 (h ▸ List.mem_map_of_mem hp)
      rw [e1, e2]
    · have := hl x
      have hb : (x == k) = false := by simp [hx]
      simpa only [List.lookup_cons, hb] using this

theorem updated_unique {fs gs : List (String × PyVal)} (h : Updated fs gs) : pyDict fs = gs := by
  obtain ⟨h1, h2⟩ := updated_pyDict fs
  refine lookup_ext ?_ (h1.trans h.1.symm) fun k => (h2 k).trans (h.2 k).symm
  rw [h1, List.nodup_reverse]
  exact List.nodup_dedup _

/-! ### Values -/

variable {F : FloatText}

/-- The first character of a value. -/
theorem writes_head {v : PyVal} {t : List Char} (h : Writes F v t) : ∃ c t', t = c :: t' ∧ isWs c = false ∧ c ≠ ']' ∧ c ≠ '}' := by
  have hnum : ∀ {a : List Char} {r : List Char}, IntSyntax a → ∃ c t', a ++ r = c :: t' ∧ isWs c = false ∧ c ≠ ']' ∧ c ≠ '}' := by
    intro a r ha
    obtain ⟨c, u, h1, h2⟩ := int_head (r := r) ha
    refine ⟨c, u, h1, ?_⟩
    rcases h2 with h2 | rfl
    · exact ⟨digit_ws h2, digit_ne' h2 (by decide), digit_ne' h2 (by decide)⟩
    · decide
  cases h with
  | int i =>
    have := hnum (r := []) (int_syntax i)
    rwa [List.append_nil, intText_eq] at this
  | float ht =>
    obtain ⟨a, f, e, rfl, ha, -⟩ := ht
    have := hnum (r := f ++ e) ha
    rwa [← List.append_assoc] at this
  | null => exact ⟨'n', _, rfl, by decide⟩
  | true => exact ⟨'t', _, rfl, by decide⟩
  | false => exact ⟨'f', _, rfl, by decide⟩
  | nan => exact ⟨'N', _, rfl, by decide⟩
  | pinf => exact ⟨'I', _, rfl, by decide⟩
  | ninf => exact ⟨'-', _, rfl, by decide⟩
  | negZero => exact ⟨'-', _, rfl, by decide⟩
  | str _ => exact ⟨'"', _, rfl, by decide⟩
  | emptyList _ => exact ⟨'[', _, rfl, by decide⟩
  | list _ _ => exact ⟨'[', _, rfl, by decide⟩
  | emptyDict _ => exact ⟨'{', _, rfl, by decide⟩
  | dict _ _ _ => exact ⟨'{', _, rfl, by decide⟩

theorem items_head {l : List PyVal} {u : List Char} (h : WritesItems F l u) : ∃ c t', u = c :: t' ∧ isWs c = false ∧ c ≠ ']' := by
  cases h with
  | last hv hw => obtain ⟨c, t', rfl, h1, h2, -⟩ := writes_head hv; exact ⟨c, _, rfl, h1, h2⟩
  | cons hv _ _ _ => obtain ⟨c, t', rfl, h1, h2, -⟩ := writes_head hv; exact ⟨c, _, rfl, h1, h2⟩

theorem fields_head {fs : List (String × PyVal)} {u : List Char} (h : WritesFields F fs u) : ∃ t', u = '"' :: t' := by
  cases h <;> exact ⟨_, rfl⟩

theorem value_scalar {n : Nat} {c : Char} {t : List Char} (h1 : c ≠ '"') (h2 : c ≠ '{') (h3 : c ≠ '[') :
    value F (n + 1) (c :: t) = scalar F (c :: t) := by
  simp only [value, h1, h2, h3, if_false]

theorem value_number {n : Nat} {t : List Char} {x : PyVal × List Char} {c : Char} (h1 : c.isDigit = true ∨ c = '-')
    (h : number F (c :: t) = some x) : value F (n + 1) (c :: t) = .ok x := by
  have hc : c ≠ '"' ∧ c ≠ '{' ∧ c ≠ '[' := by
    rcases h1 with h1 | rfl
    · exact ⟨digit_ne' h1 (by decide), digit_ne' h1 (by decide), digit_ne' h1 (by decide)⟩
    · decide
  rw [value_scalar hc.1 hc.2.1 hc.2.2]
  simp only [scalar, h]

theorem natPart_letter {c : Char} {t : List Char} (h : c.isDigit = false) : natPart (c :: t) = none := by
  have : c ≠ '0' := by rintro rfl; cases h
  simp [natPart, this, h]

theorem number_letter {c : Char} {t : List Char} (h : c.isDigit = false) (h' : c ≠ '-') : number F (c :: t) = none := by
  simp [number, intPart, h', natPart_letter h]

theorem stop_comma : (',' : Char).isDigit = false ∧ (',' : Char) ≠ '.' ∧ (',' : Char) ≠ 'e' ∧ (',' : Char) ≠ 'E' := by decide
theorem stop_bracket : (']' : Char).isDigit = false ∧ (']' : Char) ≠ '.' ∧ (']' : Char) ≠ 'e' ∧ (']' : Char) ≠ 'E' := by decide
theorem stop_brace : ('}' : Char).isDigit = false ∧ ('}' : Char) ≠ '.' ∧ ('}' : Char) ≠ 'e' ∧ ('}' : Char) ≠ 'E' := by decide

mutual
theorem value_writes {v : PyVal} {t : List Char} (h : Writes F v t) {n : Nat} {r : List Char} (hr : (∃ x, v = .num x) → Stop r)
    (hn : 2 * t.length + 1 ≤ n) :
    value F n (t ++ r) = .ok (v, r) := by
  obtain ⟨n, rfl⟩ : ∃ m, n = m + 1 := ⟨n - 1, by omega⟩
  cases h with
  | null => simp [value, scalar, number_letter, constants, lit, List.findSome?]
  | true => simp [value, scalar, number_letter, constants, lit, List.findSome?]
  | false => simp [value, scalar, number_letter, constants, lit, List.findSome?]
  | nan => simp [value, scalar, number_letter, constants, lit, List.findSome?]
  | pinf => simp [value, scalar, number_letter, constants, lit, List.findSome?]
  | ninf => simp [value, scalar, number, intPart, natPart_letter, constants, lit, List.findSome?]
  | int i =>
    rw [← intText_eq]
    obtain ⟨c, u, h1, h2⟩ := int_head (r := r) (int_syntax i)
    have h3 := number_int F i (hr ⟨_, rfl⟩)
    rw [h1] at h3 ⊢
    exact value_number h2 h3
  | negZero =>
    have hs : IntSyntax ['-', '0'] := ⟨['-'], ['0'], rfl, .inr rfl, ⟨by simp, by simp⟩, .inl rfl⟩
    have h1 := intPart_syntax hs (r := r) fun c hc => (hr ⟨_, rfl⟩ c hc).1
    have h2 := fracPart_none (t := r) fun c hc => (hr ⟨_, rfl⟩ c hc).2.1
    have h3 := expPart_none (t := r) fun c hc => (hr ⟨_, rfl⟩ c hc).2.2
    refine value_number (c := '-') (t := '0' :: r) (.inr rfl) ?_
    simp only [List.cons_append, List.nil_append] at h1
    simp only [number, h1, Option.map_some, h2, h3, and_self, if_true]
    rfl
  | float ht =>
    have h3 := number_float F ht (hr ⟨_, rfl⟩)
    obtain ⟨a, f, e, rfl, ha, -⟩ := ht
    obtain ⟨c, u, h1, h2⟩ := int_head (r := f ++ (e ++ r)) ha
    have h4 : a ++ f ++ e ++ r = c :: u := by rw [← h1, List.append_assoc, List.append_assoc]
    rw [h4] at h3 ⊢
    exact value_number h2 h3
  | str hs =>
    simp only [List.cons_append, List.append_assoc, List.nil_append, value, if_true, scan_str hs, bind, Except.bind, pure, Except.pure]
  | emptyList hw =>
    simp only [List.cons_append, List.append_assoc, List.nil_append, value, (by decide : ('[' : Char) ≠ '"'), (by decide : ('[' : Char) ≠ '{'),
      if_false, if_true, skip_ws_cons hw (by decide : isWs ']' = false)]
  | @list l w u hw hi =>
    obtain ⟨c, t', he, h1, h2⟩ := items_head hi
    have h3 : skip (w ++ u ++ r) = c :: (t' ++ r) := by rw [he, List.append_assoc, List.cons_append, skip_ws_cons hw h1]
    have h4 := items_writes hi (n := n) (r := r) (by simp at hn; omega)
    rw [he, List.cons_append] at h4
    simp only [List.cons_append, value, (by decide : ('[' : Char) ≠ '"'), (by decide : ('[' : Char) ≠ '{'), if_false, if_true, h3, h2, h4,
      bind, Except.bind, pure, Except.pure]
  | emptyDict hw =>
    simp only [List.cons_append, List.append_assoc, List.nil_append, value, (by decide : ('{' : Char) ≠ '"'),
      if_false, if_true, skip_ws_cons hw (by decide : isWs '}' = false)]
  | @dict fs gs w u hw hi hg =>
    obtain ⟨t', he⟩ := fields_head hi
    have h3 : skip (w ++ u ++ r) = '"' :: (t' ++ r) := by rw [he, List.append_assoc, List.cons_append, skip_ws_cons hw (by decide)]
    have h4 := members_writes hi (n := n) (r := r) (by simp at hn; omega)
    rw [he, List.cons_append] at h4
    simp only [List.cons_append, value, (by decide : ('{' : Char) ≠ '"'), if_false, if_true, h3, (by decide : ('"' : Char) ≠ '}'), h4,
      bind, Except.bind, pure, Except.pure, updated_unique hg]
theorem items_writes {l : List PyVal} {u : List Char} (h : WritesItems F l u) {n : Nat} {r : List Char} (hn : 2 * u.length ≤ n) :
    items F n (u ++ r) = .ok (l, r) := by
  cases h with
  | @last v t w hv hw =>
    obtain ⟨n, rfl⟩ : ∃ m, n = m + 1 := ⟨n - 1, by simp at hn; omega⟩
    have h1 := value_writes hv (n := n) (r := w ++ ']' :: r) (fun _ => stop_ws hw stop_bracket) (by simp at hn; omega)
    simp only [List.append_assoc, List.cons_append, List.nil_append, items, h1, bind, Except.bind, pure, Except.pure,
      skip_ws_cons hw (by decide : isWs ']' = false), (by decide : (']' : Char) ≠ ','), if_false, if_true]
  | @cons v t w w' l u hv hw hw' hi =>
    obtain ⟨n, rfl⟩ : ∃ m, n = m + 1 := ⟨n - 1, by simp at hn; omega⟩
    have h1 := value_writes hv (n := n) (r := w ++ ',' :: (w' ++ (u ++ r))) (fun _ => stop_ws hw stop_comma) (by simp at hn; omega)
    have h2 := items_writes hi (n := n) (r := r) (by simp at hn; omega)
    obtain ⟨c, t', he, h3, h4⟩ := items_head hi
    have h5 : skip (w' ++ (u ++ r)) = u ++ r := by rw [he, List.cons_append, skip_ws_cons hw' h3]
    simp only [List.append_assoc, List.cons_append, List.nil_append, items, h1, bind, Except.bind, pure, Except.pure,
      skip_ws_cons hw (by decide : isWs ',' = false), if_true, h5, h2]
theorem members_writes {fs : List (String × PyVal)} {u : List Char} (h : WritesFields F fs u) {n : Nat} {r : List Char}
    (hn : 2 * u.length ≤ n) : members F n (u ++ r) = .ok (fs, r) := by
  cases h with
  | @last k s v t w1 w2 w3 hk hw1 hw2 hv hw3 =>
    obtain ⟨n, rfl⟩ : ∃ m, n = m + 1 := ⟨n - 1, by simp at hn; omega⟩
    have h1 := value_writes hv (n := n) (r := w3 ++ '}' :: r) (fun _ => stop_ws hw3 stop_brace) (by simp at hn; omega)
    obtain ⟨c, t', he, h3, -, -⟩ := writes_head hv
    have h5 : skip (w2 ++ (t ++ (w3 ++ '}' :: r))) = t ++ (w3 ++ '}' :: r) := by rw [he, List.cons_append, skip_ws_cons hw2 h3]
    simp only [List.append_assoc, List.cons_append, List.nil_append, members, if_true, scan_str hk, bind, Except.bind, pure, Except.pure,
      skip_ws_cons hw1 (by decide : isWs ':' = false), h5, h1, skip_ws_cons hw3 (by decide : isWs '}' = false),
      (by decide : ('}' : Char) ≠ ','), if_false]
  | @cons k s v t w1 w2 w3 w4 fs u hk hw1 hw2 hv hw3 hw4 hi =>
    obtain ⟨n, rfl⟩ : ∃ m, n = m + 1 := ⟨n - 1, by simp at hn; omega⟩
    have h1 := value_writes hv (n := n) (r := w3 ++ ',' :: (w4 ++ (u ++ r))) (fun _ => stop_ws hw3 stop_comma) (by simp at hn; omega)
    have h2 := members_writes hi (n := n) (r := r) (by simp at hn; omega)
    obtain ⟨c, t', he, h3, -, -⟩ := writes_head hv
    have h5 : skip (w2 ++ (t ++ (w3 ++ ',' :: (w4 ++ (u ++ r))))) = t ++ (w3 ++ ',' :: (w4 ++ (u ++ r))) := by
      rw [he, List.cons_append, skip_ws_cons hw2 h3]
    obtain ⟨t'', he'⟩ := fields_head hi
    have h6 : skip (w4 ++ (u ++ r)) = u ++ r := by rw [he', List.cons_append, skip_ws_cons hw4 (by decide)]
    simp only [List.append_assoc, List.cons_append, List.nil_append, members, if_true, scan_str hk, bind, Except.bind, pure, Except.pure,
      skip_ws_cons hw1 (by decide : isWs ':' = false), h5, h1, skip_ws_cons hw3 (by decide : isWs ',' = false), h6, h2]
end

theorem loads_writes {v : PyVal} {t w w' : List Char} (h : Writes F v t) (hw : Ws w) (hw' : Ws w') : loads F (w ++ (t ++ w')) = .ok v := by
  obtain ⟨c, t', he, h1, -, -⟩ := writes_head h
  have hs : skip (w ++ (t ++ w')) = t ++ w' := by rw [he, List.cons_append, skip_ws_cons hw h1]
  have hstop : Stop w' := by
    intro d hd
    rcases hw' d (List.mem_of_mem_head? hd) with rfl | rfl | rfl | rfl <;> decide
  have := value_writes h (n := 2 * (w ++ (t ++ w')).length + 1) (fun _ => hstop) (by simp; omega)
  simp only [loads, hs, this, bind, Except.bind, pure, Except.pure, skip_all hw', if_true]

/-! ### `dumps` writes -/

theorem charsFields_keys (fs : List (String × PyVal)) : (charsFields F fs).map (·.1) = fs.map (·.1) := by
  induction fs with
  | nil => rfl
  | cons f fs ih => obtain ⟨k, v⟩ := f; simp [charsFields, ih]

theorem ws_nil : Ws [] := fun _ h => by cases h
theorem ws_blank : Ws [' '] := fun c h => by simp at h; exact .inl h

variable {D : ℝ → Prop}

mutual
theorem dumps_writes (hF : Faithful F D) : ∀ {v : PyVal}, Printable D v → Writes F (chars F v) (dumps F v)
  | .none, _ => .null
  | .bool true, _ => .true
  | .bool false, _ => .false
  | .num (.int i), _ => by
    have := Writes.int (F := F) i
    rw [← intText_eq] at this; exact this
  | .num (.flt (.fin r)), h => by
    obtain ⟨h1, h2⟩ := hF r h
    have := Writes.float (F := F) h1
    rw [h2] at this; exact this
  | .num (.flt .pinf), _ => .pinf
  | .num (.flt .ninf), _ => .ninf
  | .num (.flt .nan), _ => .nan
  | .str s, _ => by
    have := Writes.str (F := F) (writesStr_esc s.toList)
    rwa [String.ofList_toList] at this
  | .text j, _ => .str (writesStr_esc _)
  | .list [], _ => .emptyList ws_nil
  | .list (v :: l), h => .list (w := []) ws_nil (items_dumps hF (dumps_writes hF h.1) h.2)
  | .tuple [], _ => .emptyList ws_nil
  | .tuple (v :: l), h => .list (w := []) ws_nil (items_dumps hF (dumps_writes hF h.1) h.2)
  | .dict [], _ => .emptyDict ws_nil
  | .dict ((k, v) :: fs), h => by
    refine .dict (w := []) ws_nil (fields_dumps hF (dumps_writes hF h.2.1) h.2.2) ?_
    have h0 := updated_pyDict (charsFields F ((k, v) :: fs))
    rwa [pyDict_nodup] at h0
    exact (charsFields_keys (F := F) ((k, v) :: fs)).symm ▸ h.1
theorem items_dumps (hF : Faithful F D) {v : PyVal} {t : List Char} (hv : Writes F v t) : ∀ {l : List PyVal}, PrintableList D l →
    WritesItems F (v :: charsList F l) (t ++ dumpsItemsTail F l ++ [']'])
  | [], _ => by
    have := WritesItems.last hv ws_nil
    simpa [charsList, dumpsItemsTail] using this
  | v' :: l, hl => by
    have := WritesItems.cons hv ws_nil ws_blank (items_dumps hF (dumps_writes hF hl.1) hl.2)
    simpa [charsList, dumpsItemsTail] using this
theorem fields_dumps (hF : Faithful F D) {k : String} {v : PyVal} {t : List Char} (hv : Writes F v t) :
    ∀ {fs : List (String × PyVal)}, PrintableFields D fs →
    WritesFields F ((k, v) :: charsFields F fs) (quote k.toList ++ (':' :: ' ' :: (t ++ dumpsFieldsTail F fs)) ++ ['}'])
  | [], _ => by
    have := WritesFields.last (k := k.toList) (writesStr_esc _) ws_nil ws_blank hv ws_nil
    simpa [charsFields, dumpsFieldsTail, quote, String.ofList_toList] using this
  | (k', v') :: fs, hl => by
    have := WritesFields.cons (k := k.toList) (writesStr_esc _) ws_nil ws_blank hv ws_nil ws_blank
      (fields_dumps hF (k := k') (dumps_writes hF hl.1) hl.2)
    simpa [charsFields, dumpsFieldsTail, quote, String.ofList_toList] using this
end

theorem loads_dumps (hF : Faithful F D) {v : PyVal} (h : Printable D v) : loads F (dumps F v) = .ok (chars F v) := by
  have := loads_writes (dumps_writes hF h) ws_nil ws_nil
  simpa using this

end JsonText
end Paragami
