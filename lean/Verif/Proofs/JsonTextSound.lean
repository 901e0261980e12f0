import Verif.Proofs.JsonTextPrefix

/-! # What is read was written, and what cannot be read raises `ValueError` -/

namespace Paragami
namespace JsonText
open Spec Pattern

variable {F : FloatText}

theorem mem_takeWhile {P : Char → Bool} {t : List Char} {c : Char} (h : c ∈ t.takeWhile P) : P c = true := by
  induction t with
  | nil => simp at h
  | cons d t ih =>
    rw [List.takeWhile_cons] at h
    split_ifs at h with hd
    · rcases List.mem_cons.mp h with rfl | h
      · exact hd
      · exact ih h
    · simp at h

theorem skip_split (t : List Char) : ∃ w, Ws w ∧ t = w ++ skip t := by
  refine ⟨t.takeWhile isWs, fun c hc => isWs_iff.mp (mem_takeWhile hc), (List.takeWhile_append_dropWhile).symm⟩

/-! ### Strings -/

theorem hexVal_sound {c : Char} {n : Nat} (h : hexVal c = some n) : HexDigit c n := by
  have hc : c = Char.ofNat c.toNat := (Char.ofNat_toNat c).symm
  simp only [hexVal] at h
  split_ifs at h with h1 h2 h3
  all_goals
    simp only [Option.some.injEq] at h
    generalize c.toNat = m at *
    subst h
    subst hc
  · obtain ⟨h1, h2⟩ := h1
    interval_cases m <;> simp [HexDigit]
  · obtain ⟨h1, h2⟩ := h2
    interval_cases m <;> simp [HexDigit]
  · obtain ⟨h1, h2⟩ := h3
    interval_cases m <;> simp [HexDigit] <;> decide

theorem hex4_sound {t r : List Char} {n : Nat} (h : hex4 t = .ok (n, r)) : ∃ l, t = l ++ r ∧ Hex4 l n := by
  rcases t with _ | ⟨c1, _ | ⟨c2, _ | ⟨c3, _ | ⟨c4, t⟩⟩⟩⟩
  · exact absurd h bad_ne
  · exact absurd h bad_ne
  · exact absurd h bad_ne
  · exact absurd h bad_ne
  · simp only [hex4] at h
    split at h
    · rename_i n1 n2 n3 n4 h1 h2 h3 h4
      simp only [Except.ok.injEq, Prod.mk.injEq] at h
      obtain ⟨rfl, rfl⟩ := h
      exact ⟨_, rfl, c1, c2, c3, c4, n1, n2, n3, n4, rfl, hexVal_sound h1, hexVal_sound h2, hexVal_sound h3, hexVal_sound h4, rfl⟩
    · exact absurd h bad_ne

theorem hex4_lt {l : List Char} {n : Nat} (h : Hex4 l n) : n < 65536 := by
  obtain ⟨c1, c2, c3, c4, n1, n2, n3, n4, -, h1, h2, h3, h4, rfl⟩ := h
  have := h1.1; have := h2.1; have := h3.1; have := h4.1
  omega

theorem toNat_ofNat {n : Nat} (h : n < 55296 ∨ 57343 < n ∧ n < 1114112) : (Char.ofNat n).toNat = n := by
  have hv : n.isValidChar := h
  rw [Char.ofNat, dif_pos hv]
  rfl

theorem escape_sound {t r : List Char} {c : Char} (h : escape t = .ok (some c, r)) :
    ∃ e, t = e ++ r ∧ ∀ s u, WritesStr s u → WritesStr (c :: s) ('\\' :: (e ++ u)) := by
  cases t with
  | nil => exact absurd h bad_ne
  | cons d t =>
    have sh : ∀ {c d : Char}, (d, c) ∈ shorts → ∀ s u, WritesStr s u → WritesStr (c :: s) ('\\' :: ([d] ++ u)) := fun hd s u h => .short hd h
    simp only [escape] at h
    split at h
    · rename_i hd
      subst hd
      obtain ⟨⟨n, t1⟩, h1, h'⟩ := bind_ok h
      replace h := h'
      simp only at h
      clear h'
      obtain ⟨l, rfl, H⟩ := hex4_sound h1
      have hn := hex4_lt H
      split at h
      · rename_i hs
        split at h
        · rename_i t2
          obtain ⟨⟨w, t3⟩, h2, h'⟩ := bind_ok h
          replace h := h'
          obtain ⟨l', rfl, H'⟩ := hex4_sound h2
          simp only at h
          split at h
          · rename_i hw
            simp only [Except.ok.injEq, Prod.mk.injEq, Option.some.injEq] at h
            obtain ⟨rfl, rfl⟩ := h
            refine ⟨'u' :: (l ++ '\\' :: 'u' :: l'), by simp, fun s u hu => ?_⟩
            have := WritesStr.pair (a := n - 55296) (b := w - 56320) (c := Char.ofNat (65536 + (n - 55296) * 1024 + (w - 56320)))
              (by rwa [Nat.add_sub_cancel' hs.1]) (by rwa [Nat.add_sub_cancel' hw.1]) (by omega) (by omega)
              (by rw [toNat_ofNat (by omega)]; omega) hu
            simpa using this
          · simp at h
        · simp at h
      · rename_i hs
        split at h
        · simp at h
        · rename_i hs'
          simp only [Except.ok.injEq, Prod.mk.injEq, Option.some.injEq] at h
          obtain ⟨rfl, rfl⟩ := h
          refine ⟨'u' :: l, rfl, fun s u hu => ?_⟩
          exact .code (by rwa [toNat_ofNat (by omega)]) hu
    · repeat' split at h
      all_goals first
        | exact absurd h bad_ne
        | (rename_i hd
           subst hd
           simp only [Except.ok.injEq, Prod.mk.injEq, Option.some.injEq] at h
           obtain ⟨rfl, rfl⟩ := h
           exact ⟨[_], rfl, sh (by simp [shorts])⟩)

theorem scan_sound : ∀ {n : Nat} {t s r : List Char}, scanString n t = .ok (s, r) → ∃ u, t = u ++ '"' :: r ∧ WritesStr s u
  | 0, _, _, _, h => absurd h bad_ne
  | _ + 1, [], _, _, h => absurd h bad_ne
  | n + 1, c :: t, s, r, h => by
    simp only [scanString] at h
    split at h
    · rename_i hc
      simp only [Except.ok.injEq, Prod.mk.injEq] at h
      obtain ⟨rfl, rfl⟩ := h
      exact ⟨[], by rw [hc]; rfl, .nil⟩
    · rename_i hc
      split at h
      · rename_i hc'
        obtain ⟨⟨d, t1⟩, h1, h'⟩ := bind_ok h
        replace h := h'
        obtain ⟨⟨s1, t2⟩, h2, h'⟩ := bind_ok h
        replace h := h'
        cases d with
        | none => simp at h
        | some d =>
          simp only [pure, Except.pure, Except.ok.injEq, Prod.mk.injEq] at h
          obtain ⟨rfl, rfl⟩ := h
          obtain ⟨e, rfl, he⟩ := escape_sound h1
          obtain ⟨u, rfl, hu⟩ := scan_sound h2
          exact ⟨'\\' :: (e ++ u), by rw [hc']; simp, he _ _ hu⟩
      · rename_i hc'
        split at h
        · exact absurd h bad_ne
        · rename_i h32
          obtain ⟨⟨s1, t2⟩, h2, h'⟩ := bind_ok h
          replace h := h'
          simp only [pure, Except.pure, Except.ok.injEq, Prod.mk.injEq] at h
          obtain ⟨rfl, rfl⟩ := h
          obtain ⟨u, rfl, hu⟩ := scan_sound h2
          exact ⟨c :: u, rfl, .plain hc hc' (by omega) hu⟩

/-! ### Numbers -/

theorem takeWhile_digits (t : List Char) : ∀ c ∈ t.takeWhile Char.isDigit, c.isDigit = true := fun _ hc => mem_takeWhile hc

theorem natPart_sound {t a r : List Char} (h : natPart t = some (a, r)) : t = a ++ r ∧ DecDigits a ∧ (a = ['0'] ∨ a.head? ≠ some '0') := by
  cases t with
  | nil => simp [natPart] at h
  | cons c t =>
    simp only [natPart] at h
    split_ifs at h with h1 h2
    · simp only [Option.some.injEq, Prod.mk.injEq] at h
      obtain ⟨rfl, rfl⟩ := h
      exact ⟨by rw [h1]; rfl, ⟨by simp, by simp⟩, .inl rfl⟩
    · simp only [Option.some.injEq, Prod.mk.injEq] at h
      obtain ⟨rfl, rfl⟩ := h
      refine ⟨by simp, ⟨by simp, fun d hd => ?_⟩, .inr (by simp [h1])⟩
      rcases List.mem_cons.mp hd with rfl | hd
      · exact h2
      · exact takeWhile_digits t d hd

theorem intPart_sound {t a r : List Char} (h : intPart t = some (a, r)) : t = a ++ r ∧ IntSyntax a := by
  cases t with
  | nil => simp [intPart] at h
  | cons c t =>
    simp only [intPart] at h
    split_ifs at h with h1
    · rw [Option.map_eq_some_iff] at h
      obtain ⟨⟨d, s⟩, h2, h3⟩ := h
      simp only [Prod.mk.injEq] at h3
      obtain ⟨rfl, rfl⟩ := h3
      obtain ⟨h4, h5, h6⟩ := natPart_sound h2
      exact ⟨by rw [h1, h4]; rfl, ['-'], d, rfl, .inr rfl, h5, h6⟩
    · obtain ⟨h4, h5, h6⟩ := natPart_sound h
      exact ⟨h4, [], a, rfl, .inl rfl, h5, h6⟩

theorem fracPart_sound (t : List Char) : t = (fracPart t).1 ++ (fracPart t).2 ∧ ((fracPart t).1 = [] ∨ ∃ d, (fracPart t).1 = '.' :: d ∧ DecDigits d) := by
  cases t with
  | nil => simp [fracPart]
  | cons c t =>
    simp only [fracPart]
    split_ifs with h
    · exact ⟨by simp [h.1], .inr ⟨_, rfl, h.2, takeWhile_digits t⟩⟩
    · simp

theorem signPart_sound (t : List Char) : t = (signPart t).1 ++ (signPart t).2 ∧ ((signPart t).1 = [] ∨ (signPart t).1 = ['-'] ∨ (signPart t).1 = ['+']) := by
  cases t with
  | nil => simp [signPart]
  | cons c t =>
    simp only [signPart]
    split_ifs with h
    · rcases h with rfl | rfl <;> simp
    · simp

theorem expPart_sound (t : List Char) : t = (expPart t).1 ++ (expPart t).2 ∧ ((expPart t).1 = [] ∨
    ∃ c sg d, (expPart t).1 = c :: (sg ++ d) ∧ (c = 'e' ∨ c = 'E') ∧ (sg = [] ∨ sg = ['-'] ∨ sg = ['+']) ∧ DecDigits d) := by
  cases t with
  | nil => simp [expPart]
  | cons c t =>
    obtain ⟨h1, h2⟩ := signPart_sound t
    simp only [expPart]
    split_ifs with h
    · refine ⟨?_, .inr ⟨_, _, _, rfl, h.1, h2, h.2, takeWhile_digits _⟩⟩
      simp [← h1]
    · simp

theorem toDigits_ofDigitChars {d : List Char} (hd : DecDigits d) (h0 : d = ['0'] ∨ d.head? ≠ some '0') :
    Nat.toDigits 10 (Nat.ofDigitChars 10 d 0) = d := by
  induction d using List.reverseRecOn with
  | nil => exact absurd rfl hd.1
  | append_singleton l c ih =>
    have hc : c.isDigit = true := hd.2 c (by simp)
    obtain ⟨hc1, hc2⟩ := digit_code hc
    have hcn : Nat.digitChar (c.toNat - 48) = c := by
      have : c = Char.ofNat c.toNat := (Char.ofNat_toNat c).symm
      generalize c.toNat = m at *
      subst this
      interval_cases m <;> rfl
    have hv : Nat.ofDigitChars 10 (l ++ [c]) 0 = 10 * Nat.ofDigitChars 10 l 0 + (c.toNat - 48) := by
      simp [Nat.ofDigitChars, List.foldl_append]
    rw [hv]
    cases l with
    | nil =>
      have : Nat.ofDigitChars 10 [] 0 = 0 := rfl
      rw [this, Nat.mul_zero, Nat.zero_add, Nat.toDigits_of_lt_base (by omega), hcn]
      rfl
    | cons e l =>
      have hl : DecDigits (e :: l) := ⟨by simp, fun x hx => hd.2 x (List.mem_append_left _ hx)⟩
      have he : (e :: l).head? ≠ some '0' := by
        rcases h0 with h0 | h0
        · simp at h0
        · simpa using h0
      have h := ih hl (.inr he)
      have hp : Nat.ofDigitChars 10 (e :: l) 0 ≠ 0 := by
        intro hz
        rw [hz] at h
        rw [← h] at he
        exact he rfl
      rw [Nat.toDigits_of_base_le (by omega) (by omega)]
      rw [show (10 * Nat.ofDigitChars 10 (e :: l) 0 + (c.toNat - 48)) / 10 = Nat.ofDigitChars 10 (e :: l) 0 by omega, h,
        show (10 * Nat.ofDigitChars 10 (e :: l) 0 + (c.toNat - 48)) % 10 = c.toNat - 48 by omega, hcn]

theorem int_sound {a : List Char} (h : IntSyntax a) : Writes F (.num (.int (intVal a))) a := by
  obtain ⟨sg, d, rfl, hs, hd, h0⟩ := h
  have h := toDigits_ofDigitChars hd h0
  rcases hs with rfl | rfl
  · have h1 : intVal d = Int.ofNat (Nat.ofDigitChars 10 d 0) := by
      obtain ⟨hne, hall⟩ := hd
      cases d with
      | nil => exact absurd rfl hne
      | cons c l =>
        have hc : c ≠ '-' := digit_ne' (hall c (by simp)) (by decide)
        simp only [intVal, hc, if_false]; rfl
    have := Writes.int (F := F) (Int.ofNat (Nat.ofDigitChars 10 d 0))
    rw [← intText_eq] at this
    rw [List.nil_append, h1]
    simpa only [intText, h] using this
  · simp only [List.cons_append, List.nil_append, intVal, if_true]
    cases hn : Nat.ofDigitChars 10 d 0 with
    | zero =>
      rw [hn] at h
      rw [← h]
      exact .negZero
    | succ n =>
      have := Writes.int (F := F) (Int.negSucc n)
      rw [← intText_eq] at this
      rw [hn] at h
      simp only [intText, h] at this
      exact this

theorem number_sound {t r : List Char} {v : PyVal} (h : number F t = some (v, r)) : ∃ u, t = u ++ r ∧ Writes F v u := by
  simp only [number, Option.map_eq_some_iff] at h
  obtain ⟨⟨a, b⟩, h1, h2⟩ := h
  simp only [Prod.mk.injEq] at h2
  obtain ⟨h2, rfl⟩ := h2
  obtain ⟨rfl, ha⟩ := intPart_sound h1
  obtain ⟨hf, hf'⟩ := fracPart_sound b
  obtain ⟨he, he'⟩ := expPart_sound (fracPart b).2
  refine ⟨a ++ (fracPart b).1 ++ (expPart (fracPart b).2).1, ?_, ?_⟩
  · rw [List.append_assoc, List.append_assoc, ← he, ← hf]
  · rw [← h2]
    split_ifs with hi
    · rw [hi.1, hi.2, List.append_nil, List.append_nil]
      exact int_sound ha
    · refine .float ⟨a, _, _, rfl, ha, hf', he', ?_⟩
      by_contra hn
      rw [not_or, not_not, not_not] at hn
      exact hi hn

theorem lit_sound : ∀ {l t r : List Char}, lit l t = some r → t = l ++ r
  | [], t, r, h => by simp only [lit, Option.some.injEq] at h; exact h
  | a :: l, [], r, h => by simp [lit] at h
  | a :: l, c :: t, r, h => by
    simp only [lit] at h
    split_ifs at h with hc
    rw [hc, lit_sound h]; rfl

theorem scalar_sound {t r : List Char} {v : PyVal} (h : scalar F t = .ok (v, r)) : ∃ u, t = u ++ r ∧ Writes F v u := by
  simp only [scalar] at h
  split at h
  · rename_i x hx
    simp only [Except.ok.injEq] at h
    subst h
    exact number_sound hx
  · split at h
    · rename_i x hx
      simp only [Except.ok.injEq] at h
      subst h
      obtain ⟨a, ha, hx⟩ := List.exists_of_findSome?_eq_some hx
      rw [Option.map_eq_some_iff] at hx
      obtain ⟨r', h1, h2⟩ := hx
      simp only [Prod.mk.injEq] at h2
      obtain ⟨rfl, rfl⟩ := h2
      refine ⟨a.1, lit_sound h1, ?_⟩
      simp only [constants, List.mem_cons, List.not_mem_nil, or_false] at ha
      rcases ha with rfl | rfl | rfl | rfl | rfl | rfl
      · exact .null
      · exact .true
      · exact .false
      · exact .nan
      · exact .pinf
      · exact .ninf
    · exact absurd h bad_ne

/-! ### Values -/

mutual
theorem value_sound : ∀ {n : Nat} {t r : List Char} {v : PyVal}, value F n t = .ok (v, r) → ∃ u, t = u ++ r ∧ Writes F v u
  | 0, _, _, _, h => by simp [value] at h
  | _ + 1, [], _, _, h => absurd h (by rw [value]; exact bad_ne)
  | n + 1, c :: t, r, v, h => by
    simp only [value] at h
    split at h
    · rename_i hc
      obtain ⟨⟨s, r'⟩, h1, h'⟩ := bind_ok h
      replace h := h'
      simp only [pure, Except.pure, Except.ok.injEq, Prod.mk.injEq] at h
      obtain ⟨rfl, rfl⟩ := h
      obtain ⟨u, rfl, hu⟩ := scan_sound h1
      exact ⟨'"' :: (u ++ ['"']), by simp [hc], .str hu⟩
    split at h
    · rename_i hc
      subst hc
      obtain ⟨w, hw, hs⟩ := skip_split t
      split at h
      · exact absurd h bad_ne
      · rename_i d r1 hr1
        rw [hr1] at hs
        split at h
        · rename_i hd
          simp only [Except.ok.injEq, Prod.mk.injEq] at h
          obtain ⟨rfl, rfl⟩ := h
          exact ⟨'{' :: (w ++ ['}']), by simp [hs, hd], .emptyDict hw⟩
        · obtain ⟨⟨fs, r2⟩, h1, h'⟩ := bind_ok h
          replace h := h'
          simp only [pure, Except.pure, Except.ok.injEq, Prod.mk.injEq] at h
          obtain ⟨rfl, rfl⟩ := h
          obtain ⟨u, h2, hu⟩ := members_sound h1
          exact ⟨'{' :: (w ++ u), by simp [hs, h2], .dict hw hu (updated_pyDict fs)⟩
    split at h
    · rename_i hc
      subst hc
      obtain ⟨w, hw, hs⟩ := skip_split t
      split at h
      · exact absurd h bad_ne
      · rename_i d r1 hr1
        rw [hr1] at hs
        split at h
        · rename_i hd
          simp only [Except.ok.injEq, Prod.mk.injEq] at h
          obtain ⟨rfl, rfl⟩ := h
          exact ⟨'[' :: (w ++ [']']), by simp [hs, hd], .emptyList hw⟩
        · obtain ⟨⟨l, r2⟩, h1, h'⟩ := bind_ok h
          replace h := h'
          simp only [pure, Except.pure, Except.ok.injEq, Prod.mk.injEq] at h
          obtain ⟨rfl, rfl⟩ := h
          obtain ⟨u, h2, hu⟩ := items_sound h1
          exact ⟨'[' :: (w ++ u), by simp [hs, h2], .list hw hu⟩
    · exact scalar_sound h
theorem items_sound : ∀ {n : Nat} {t r : List Char} {l : List PyVal}, items F n t = .ok (l, r) → ∃ u, t = u ++ r ∧ WritesItems F l u
  | 0, _, _, _, h => by simp [items] at h
  | n + 1, t, r, l, h => by
    simp only [items] at h
    obtain ⟨⟨v, r1⟩, h1, h'⟩ := bind_ok h
    replace h := h'
    obtain ⟨u, rfl, hu⟩ := value_sound h1
    obtain ⟨w, hw, hs⟩ := skip_split r1
    split at h
    · exact absurd h bad_ne
    · rename_i d r2 hr2
      rw [hr2] at hs
      split at h
      · rename_i hd
        obtain ⟨⟨l', r3⟩, h2, h'⟩ := bind_ok h
        replace h := h'
        simp only [pure, Except.pure, Except.ok.injEq, Prod.mk.injEq] at h
        obtain ⟨rfl, rfl⟩ := h
        obtain ⟨u', h3, hu'⟩ := items_sound h2
        obtain ⟨w', hw', hs'⟩ := skip_split r2
        exact ⟨_, by rw [hs, hs', h3, hd]; simp, .cons hu hw hw' hu'⟩
      · split at h
        · rename_i hd
          simp only [pure, Except.pure, Except.ok.injEq, Prod.mk.injEq] at h
          obtain ⟨rfl, rfl⟩ := h
          exact ⟨_, by rw [hs, hd]; simp, .last hu hw⟩
        · exact absurd h bad_ne
theorem members_sound : ∀ {n : Nat} {t r : List Char} {fs : List (String × PyVal)}, members F n t = .ok (fs, r) →
    ∃ u, t = u ++ r ∧ WritesFields F fs u
  | 0, _, _, _, h => by simp [members] at h
  | _ + 1, [], _, _, h => absurd h (by rw [members]; exact bad_ne)
  | n + 1, q :: t, r, fs, h => by
    simp only [members] at h
    split at h
    · rename_i hq
      obtain ⟨⟨k, r1⟩, h1, h'⟩ := bind_ok h
      replace h := h'
      obtain ⟨s, rfl, hk⟩ := scan_sound h1
      obtain ⟨w1, hw1, hs1⟩ := skip_split r1
      split at h
      · exact absurd h bad_ne
      rename_i d r2 hr2
      rw [hr2] at hs1
      split at h
      · rename_i hd
        obtain ⟨w2, hw2, hs2⟩ := skip_split r2
        obtain ⟨⟨v, r3⟩, h2, h'⟩ := bind_ok h
        replace h := h'
        obtain ⟨u, hu', hu⟩ := value_sound h2
        obtain ⟨w3, hw3, hs3⟩ := skip_split r3
        simp only at h
        split at h
        · exact absurd h bad_ne
        rename_i d' r4 hr4
        rw [hr4] at hs3
        split at h
        · rename_i hd'
          obtain ⟨w4, hw4, hs4⟩ := skip_split r4
          obtain ⟨⟨gs, r5⟩, h3, h'⟩ := bind_ok h
          replace h := h'
          simp only [pure, Except.pure, Except.ok.injEq, Prod.mk.injEq] at h
          obtain ⟨rfl, rfl⟩ := h
          obtain ⟨u', h4, hu''⟩ := members_sound h3
          exact ⟨_, by rw [hq, hs1, hd, hs2, hu', hs3, hd', hs4, h4]; simp, .cons hk hw1 hw2 hu hw3 hw4 hu''⟩
        · split at h
          · rename_i hd'
            simp only [pure, Except.pure, Except.ok.injEq, Prod.mk.injEq] at h
            obtain ⟨rfl, rfl⟩ := h
            exact ⟨_, by rw [hq, hs1, hd, hs2, hu', hs3, hd']; simp, .last hk hw1 hw2 hu hw3⟩
          · exact absurd h bad_ne
      · exact absurd h bad_ne
    · exact absurd h bad_ne
end

theorem loads_sound {t : List Char} {v : PyVal} (h : loads F t = .ok v) : ∃ w u w', t = w ++ (u ++ w') ∧ Ws w ∧ Ws w' ∧ Writes F v u := by
  obtain ⟨⟨v', r⟩, h1, h'⟩ := bind_ok h
  replace h := h'
  simp only at h
  split_ifs at h with hr
  · simp only [pure, Except.pure, Except.ok.injEq] at h
    subst h
    obtain ⟨u, h2, hu⟩ := value_sound h1
    obtain ⟨w, hw, hs⟩ := skip_split t
    exact ⟨w, u, r, by rw [← h2, ← hs], hw, ws_of_skip hr, hu⟩
  · exact absurd h bad_ne

/-! ### Errors -/

/-- The error is `JSONDecodeError`, or the text has an escaped surrogate. -/
def BadErr (e : Err) (t : List Char) : Prop := e = .valueError "JSONDecodeError" ∨ e = .unmodelled ∧ SurrogateEscape t

theorem badErr_bad {α : Type} {e : Err} {t : List Char} (h : (bad : Except Err α) = .error e) : BadErr e t := by
  simp only [bad, Except.error.injEq] at h
  exact .inl h.symm

theorem surr_append {t : List Char} (u : List Char) (h : SurrogateEscape t) : SurrogateEscape (u ++ t) := by
  obtain ⟨a, d, b, rfl, hd⟩ := h
  exact ⟨u ++ a, d, b, by simp, hd⟩

theorem BadErr.append {e : Err} {t : List Char} (u : List Char) (h : BadErr e t) : BadErr e (u ++ t) :=
  h.imp id fun h => ⟨h.1, surr_append u h.2⟩

theorem BadErr.cons {e : Err} {t : List Char} (c : Char) (h : BadErr e t) : BadErr e (c :: t) := h.append [c]

theorem BadErr.skip {e : Err} {t : List Char} (h : BadErr e (skip t)) : BadErr e t := by
  obtain ⟨w, -, hs⟩ := skip_split t
  rw [hs]; exact h.append w

theorem bind_error {α β : Type} {x : Except Err α} {f : α → Except Err β} {e : Err} (h : (x >>= f) = .error e) :
    x = .error e ∨ ∃ a, x = .ok a ∧ f a = .error e := by
  cases x with
  | error e' => left; simp only [bind, Except.bind, Except.error.injEq] at h ⊢; exact h
  | ok a => right; exact ⟨a, rfl, h⟩

theorem hex4_err {t : List Char} {e : Err} (h : hex4 t = .error e) : e = .valueError "JSONDecodeError" := by
  simp only [hex4] at h
  split at h
  · split at h
    · cases h
    · exact (badErr_bad (t := []) h).resolve_right fun h => by
        obtain ⟨-, a, d, b, h, -⟩ := h
        simp at h
  · exact (badErr_bad (t := []) h).resolve_right fun h => by
      obtain ⟨-, a, d, b, h, -⟩ := h
      simp at h

theorem hex4_surrogate {t r : List Char} {n : Nat} (h : hex4 t = .ok (n, r)) (hn : 55296 ≤ n ∧ n ≤ 57343) : ∃ d b, t = d :: b ∧ (d = 'd' ∨ d = 'D') := by
  obtain ⟨l, rfl, c1, c2, c3, c4, n1, n2, n3, n4, rfl, ⟨h1, h1'⟩, ⟨h2, -⟩, ⟨h3, -⟩, ⟨h4, -⟩, rfl⟩ := hex4_sound h
  have : n1 = 13 := by omega
  subst this
  exact ⟨c1, _, rfl, h1'⟩

theorem escape_err {t : List Char} {e : Err} (h : escape t = .error e) : e = .valueError "JSONDecodeError" := by
  have hb : ∀ {α : Type} {e : Err}, (bad : Except Err α) = .error e → e = .valueError "JSONDecodeError" := by
    intro α e h
    simp only [bad, Except.error.injEq] at h
    exact h.symm
  cases t with
  | nil => exact hb h
  | cons d t =>
    simp only [escape] at h
    split at h
    · rcases bind_error h with h | ⟨⟨n, t1⟩, h1, h⟩
      · exact hex4_err h
      · simp only at h
        split at h
        · split at h
          · rcases bind_error h with h | ⟨⟨w, t3⟩, h2, h⟩
            · exact hex4_err h
            · simp only at h
              split at h <;> cases h
          · cases h
        · split at h <;> cases h
    · repeat' split at h
      all_goals first | exact hb h | cases h

theorem escape_lone {t r : List Char} (h : escape t = .ok (none, r)) : ∃ d b, t = 'u' :: d :: b ∧ (d = 'd' ∨ d = 'D') := by
  cases t with
  | nil => exact absurd h bad_ne
  | cons d t =>
    simp only [escape] at h
    split at h
    · rename_i hd
      obtain ⟨⟨n, t1⟩, h1, h'⟩ := bind_ok h
      simp only at h'
      have hs : 55296 ≤ n ∧ n ≤ 57343 := by
        split at h'
        · omega
        · split at h'
          · omega
          · simp at h'
      obtain ⟨c, b, h2, h3⟩ := hex4_surrogate h1 hs
      exact ⟨c, b, by rw [hd, h2], h3⟩
    · repeat' split at h
      all_goals first | exact absurd h bad_ne | simp at h

theorem escape_split {t r : List Char} {c : Option Char} (h : escape t = .ok (c, r)) : ∃ u, t = u ++ r := by
  cases c with
  | some c => obtain ⟨u, h, -⟩ := escape_sound h; exact ⟨u, h⟩
  | none =>
    cases t with
    | nil => exact absurd h bad_ne
    | cons d t =>
      simp only [escape] at h
      split at h
      · obtain ⟨⟨n, t1⟩, h1, h'⟩ := bind_ok h
        replace h := h'
        simp only at h
        clear h'
        obtain ⟨l, rfl, H⟩ := hex4_sound h1
        have : r = t1 := by
          split at h
          · split at h
            · obtain ⟨⟨w, t3⟩, h2, h'⟩ := bind_ok h
              simp only at h'
              split at h'
              · simp at h'
              · simp only [Except.ok.injEq, Prod.mk.injEq] at h'; exact h'.2.symm
            · simp only [Except.ok.injEq, Prod.mk.injEq] at h; exact h.2.symm
          · split at h
            · simp only [Except.ok.injEq, Prod.mk.injEq] at h; exact h.2.symm
            · simp at h
        exact ⟨d :: l, by rw [this]; rfl⟩
      · repeat' split at h
        all_goals first | exact absurd h bad_ne | simp at h

theorem scan_err : ∀ {n : Nat} {t : List Char} {e : Err}, scanString n t = .error e → BadErr e t
  | 0, _, _, h => badErr_bad h
  | _ + 1, [], _, h => badErr_bad h
  | n + 1, c :: t, e, h => by
    simp only [scanString] at h
    split at h
    · cases h
    split at h
    · rename_i hc
      rcases bind_error h with h | ⟨⟨d, t1⟩, h1, h⟩
      · exact .inl (escape_err h)
      rcases bind_error h with h | ⟨⟨s1, t2⟩, h2, h⟩
      · have hs := scan_err h
        obtain ⟨u, hu⟩ := escape_split h1
        rw [hu]
        exact (hs.append u).cons c
      cases d with
      | some d => cases h
      | none =>
        obtain ⟨d, b, h3, h4⟩ := escape_lone h1
        simp only [Except.error.injEq] at h
        exact .inr ⟨h.symm, [], d, b, by rw [hc, h3]; rfl, h4⟩
    · split at h
      · exact badErr_bad h
      · rcases bind_error h with h | ⟨⟨s1, t2⟩, h2, h⟩
        · exact (scan_err h).cons c
        · cases h

theorem scalar_err {t : List Char} {e : Err} (h : scalar F t = .error e) : BadErr e t := by
  simp only [scalar] at h
  split at h
  · cases h
  · split at h
    · cases h
    · exact badErr_bad h

theorem writes_pos {v : PyVal} {u : List Char} (h : Writes F v u) : 1 ≤ u.length := by
  obtain ⟨c, t', rfl, -⟩ := writes_head h; simp

mutual
theorem value_err : ∀ {n : Nat} {t : List Char} {e : Err}, 2 * t.length + 1 ≤ n → value F n t = .error e → BadErr e t
  | 0, _, _, hn, _ => absurd hn (by omega)
  | _ + 1, [], _, _, h => badErr_bad (α := PyVal × List Char) (by rw [value] at h; exact h)
  | n + 1, c :: t, e, hn, h => by
    have hl := length_skip t
    simp only [List.length_cons] at hn
    simp only [value] at h
    split at h
    · rcases bind_error h with h | ⟨⟨s, r'⟩, h1, h⟩
      · exact (scan_err h).cons c
      · cases h
    split at h
    · split at h
      · exact badErr_bad h
      · rename_i d r1 hr1
        rw [hr1] at hl
        split at h
        · cases h
        · rcases bind_error h with h | ⟨⟨fs, r2⟩, h1, h⟩
          · have := members_err (by omega) h
            rw [← hr1] at this
            exact this.skip.cons c
          · cases h
    split at h
    · split at h
      · exact badErr_bad h
      · rename_i d r1 hr1
        rw [hr1] at hl
        split at h
        · cases h
        · rcases bind_error h with h | ⟨⟨fs, r2⟩, h1, h⟩
          · have := items_err (by omega) h
            rw [← hr1] at this
            exact this.skip.cons c
          · cases h
    · exact scalar_err h
theorem items_err : ∀ {n : Nat} {t : List Char} {e : Err}, 2 * t.length + 2 ≤ n → items F n t = .error e → BadErr e t
  | 0, _, _, hn, _ => absurd hn (by omega)
  | n + 1, t, e, hn, h => by
    simp only [items] at h
    rcases bind_error h with h | ⟨⟨v, r1⟩, h1, h⟩
    · exact value_err (by omega) h
    obtain ⟨u, hu', hu⟩ := value_sound h1
    have hp := writes_pos hu
    have hl := length_skip r1
    rw [hu', List.length_append] at hn
    rw [hu']
    refine BadErr.append u (BadErr.skip ?_)
    simp only at h
    split at h
    · exact badErr_bad h
    · rename_i d r2 hr2
      rw [hr2] at hl ⊢
      simp only [List.length_cons] at hl
      have hl2 := length_skip r2
      split at h
      · rcases bind_error h with h | ⟨⟨l', r3⟩, h2, h⟩
        · exact (items_err (by omega) h).skip.cons d
        · cases h
      · split at h
        · cases h
        · exact badErr_bad h
theorem members_err : ∀ {n : Nat} {t : List Char} {e : Err}, 2 * t.length + 2 ≤ n → members F n t = .error e → BadErr e t
  | 0, _, _, hn, _ => absurd hn (by omega)
  | _ + 1, [], _, _, h => badErr_bad (α := PyVal × List Char) (by rw [members] at h; simpa only [bad, Except.error.injEq] using h)
  | n + 1, q :: t, e, hn, h => by
    simp only [List.length_cons] at hn
    simp only [members] at h
    split at h
    · rcases bind_error h with h | ⟨⟨k, r1⟩, h1, h⟩
      · exact (scan_err h).cons q
      obtain ⟨s, hs', hk⟩ := scan_sound h1
      rw [hs'] at hn
      simp only [List.length_append, List.length_cons] at hn
      have hl1 := length_skip r1
      rw [hs']
      refine ((BadErr.cons '"' ?_).append s).cons q
      refine BadErr.skip ?_
      simp only at h
      split at h
      · exact badErr_bad h
      rename_i d r2 hr2
      rw [hr2] at hl1 ⊢
      simp only [List.length_cons] at hl1
      have hl2 := length_skip r2
      refine BadErr.cons d ?_
      split at h
      · refine BadErr.skip ?_
        rcases bind_error h with h | ⟨⟨v, r3⟩, h2, h⟩
        · exact value_err (by omega) h
        obtain ⟨u, hu', hu⟩ := value_sound h2
        have hl3 := length_skip r3
        rw [hu'] at hl2 ⊢
        simp only [List.length_append] at hl2
        refine BadErr.append u (BadErr.skip ?_)
        simp only at h
        split at h
        · exact badErr_bad h
        rename_i d' r4 hr4
        rw [hr4] at hl3 ⊢
        simp only [List.length_cons] at hl3
        have hl4 := length_skip r4
        split at h
        · rcases bind_error h with h | ⟨⟨gs, r5⟩, h3, h⟩
          · exact (members_err (by omega) h).skip.cons d'
          · cases h
        · split at h
          · cases h
          · exact badErr_bad h
      · exact badErr_bad h
    · exact badErr_bad h
end

theorem loads_err {t : List Char} {e : Err} (h : loads F t = .error e) : BadErr e t := by
  rcases bind_error h with h | ⟨⟨v, r⟩, h1, h⟩
  · have hl := length_skip t
    exact (value_err (by omega) h).skip
  · simp only at h
    split_ifs at h
    · cases h
    · exact badErr_bad h

/-- A list or a dictionary followed by anything but white space. -/
theorem loads_trailing {v : PyVal} {t w r : List Char} (h : Writes F v t) (hv : ∀ x, v ≠ .num x) (hw : Ws w) (hr : ¬ Ws r) :
    loads F (w ++ (t ++ r)) = bad := by
  obtain ⟨c, t', he, h1, -, -⟩ := writes_head h
  have hs : skip (w ++ (t ++ r)) = t ++ r := by rw [he, List.cons_append, skip_ws_cons hw h1]
  have := value_writes h (n := 2 * (w ++ (t ++ r)).length + 1) (r := r) (fun ⟨x, hx⟩ => absurd hx (hv x)) (by simp; omega)
  simp only [loads, hs, this, bind, Except.bind]
  rw [if_neg fun h => hr (ws_of_skip h)]

end JsonText
end Paragami
