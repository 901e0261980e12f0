import Verif.Proofs.JsonTextBound

/-! # Texts that have been cut off -/

namespace Paragami
namespace JsonText
open Spec Pattern

variable {F : FloatText}

theorem cut_app {t s p x : List Char} (h : p ++ x = t ++ s) : (∃ a, a ≠ [] ∧ p ++ a = t) ∨ ∃ c, p = t ++ c ∧ c ++ x = s := by
  rcases List.append_eq_append_iff.mp h with ⟨a, h1, h2⟩ | ⟨c, h1, h2⟩
  · cases a with
    | nil => right; exact ⟨[], by simpa using h1.symm, by simpa using h2⟩
    | cons b a => left; exact ⟨b :: a, by simp, h1.symm⟩
  · right; exact ⟨c, h1, h2.symm⟩

theorem cut_ws {w u p x : List Char} {c : Char} (hw : Ws w) (hc : isWs c = false) (h : p ++ x = w ++ c :: u) :
    skip p = [] ∨ ∃ f, skip p = c :: f ∧ f ++ x = u ∧ p = w ++ c :: f := by
  rcases List.append_eq_append_iff.mp h with ⟨a, h1, h2⟩ | ⟨f, h1, h2⟩
  · left
    exact skip_all fun d hd => hw d (by rw [h1]; simp [hd])
  · cases f with
    | nil => left; rw [h1, List.append_nil]; exact skip_all hw
    | cons d f =>
      simp only [List.cons_append, List.cons.injEq] at h2
      right
      exact ⟨f, by rw [h1, skip_ws_cons hw (h2.1 ▸ hc), h2.1], h2.2.symm, by rw [h1, h2.1]⟩

/-! ### Strings -/

theorem scan_nil (n : Nat) : scanString n [] = bad := by cases n <;> simp only [scanString]

theorem scan_backslash (n : Nat) : scanString n ['\\'] = bad := by
  cases n with
  | zero => simp only [scanString]
  | succ n => simp [scanString, escape, bad, bind, Except.bind]

theorem hex4_short {t : List Char} (h : t.length < 4) : hex4 t = bad := by
  rcases t with _ | ⟨c1, _ | ⟨c2, _ | ⟨c3, _ | ⟨c4, t⟩⟩⟩⟩
  · simp only [hex4]
  · simp only [hex4]
  · simp only [hex4]
  · simp only [hex4]
  · simp at h; omega

theorem short_cut {d : Char} {p a : List Char} (h : p ++ a = ['\\', d]) (ha : a ≠ []) (n : Nat) : scanString n p = bad := by
  rcases p with _ | ⟨c1, _ | ⟨c2, p⟩⟩
  · exact scan_nil n
  · simp only [List.cons_append, List.cons.injEq] at h; rw [h.1]; exact scan_backslash n
  · simp at h; exact absurd h.2.2.2 ha

theorem code_cut {l : List Char} (hl : l.length = 4) {p a : List Char} (h : p ++ a = '\\' :: 'u' :: l) (ha : a ≠ []) (n : Nat) :
    scanString n p = bad := by
  cases n with
  | zero => simp only [scanString]
  | succ n =>
    rcases p with _ | ⟨c1, _ | ⟨c2, p⟩⟩
    · simp only [scanString]
    all_goals simp only [List.cons_append, List.nil_append, List.cons.injEq] at h
    · rw [h.1]; exact scan_backslash (n + 1)
    · have h4 : p.length < 4 := by
        have h5 := congrArg List.length h.2.2
        have : a.length ≠ 0 := fun h => ha (List.length_eq_zero_iff.mp h)
        rw [List.length_append] at h5
        omega
      rw [h.1, h.2.1]
      simp [scanString, escape, unicode, hex4_short h4, bad, bind, Except.bind]

theorem pair_cut {l l' : List Char} {A : Nat} (H : Hex4 l A) (hl : l'.length = 4) (hA : 55296 ≤ A ∧ A ≤ 56319) {p a : List Char}
    (h : p ++ a = '\\' :: 'u' :: (l ++ '\\' :: 'u' :: l')) (ha : a ≠ []) (n : Nat) : scanString n p = bad := by
  rcases cut_app (t := '\\' :: 'u' :: l) (s := '\\' :: 'u' :: l') h with ⟨a', h1, h2⟩ | ⟨q, rfl, h2⟩
  · exact code_cut (hex4_four H) h2 h1 n
  · cases n with
    | zero => simp only [scanString]
    | succ n =>
      have hx := hex4_hex H q
      have hc : scanString n q = bad := code_cut hl h2 ha n
      have hu : unicode (l ++ q) = bad ∨ unicode (l ++ q) = .ok (none, q) := by
        simp only [unicode, hx, bind, Except.bind]
        rw [if_pos hA]
        rcases q with _ | ⟨c1, _ | ⟨c2, q⟩⟩
        · right; rfl
        · right
          split
          · rename_i heq; simp at heq
          · rfl
        · left
          have hl' := congrArg List.length h2
          simp only [List.cons_append, List.cons.injEq] at h2
          rw [h2.1, h2.2.1]
          have : a.length ≠ 0 := fun h => ha (List.length_eq_zero_iff.mp h)
          simp only [List.length_append, List.length_cons] at hl'
          simp only [hex4_short (t := q) (by omega)]
          rfl
      simp only [List.cons_append, scanString, escape]
      rw [if_neg (by decide), if_pos trivial, if_pos trivial]
      rcases hu with hu | hu
      · rw [hu]; rfl
      · rw [hu]; simp only [bind, Except.bind, hc]; rfl

theorem escape_cut {e t : List Char} {c : Char} (he : ∀ q, escape (e ++ q) = .ok (some c, q))
    (ih : ∀ {p a : List Char} (n : Nat), p ++ a = t → scanString n p = bad)
    (hc : ∀ {p a : List Char} (n : Nat), p ++ a = '\\' :: e → a ≠ [] → scanString n p = bad) {p a : List Char} (n : Nat)
    (h : p ++ a = '\\' :: (e ++ t)) : scanString n p = bad := by
  rcases cut_app (t := '\\' :: e) h with ⟨a', h1, h2⟩ | ⟨q, rfl, h2⟩
  · exact hc n h2 h1
  · cases n with
    | zero => simp only [scanString]
    | succ n =>
      rw [List.cons_append]
      simp only [scanString, he, bind, Except.bind, ih n h2]
      rfl

theorem scan_cut {s t : List Char} (h : WritesStr s t) : ∀ {p a : List Char} (n : Nat), p ++ a = t → scanString n p = bad := by
  induction h with
  | nil => intro p a n h; simp at h; rw [h.1]; exact scan_nil n
  | @plain c s t h1 h2 h3 _ ih =>
    intro p a n h
    cases p with
    | nil => exact scan_nil n
    | cons d p =>
      simp only [List.cons_append, List.cons.injEq] at h
      cases n with
      | zero => simp only [scanString]
      | succ n =>
        rw [h.1]
        simp only [scanString, h1, h2, if_false, if_neg (by omega : ¬ c.toNat < 32), ih n h.2]
        rfl
  | @short d c s t hd _ ih =>
    intro p a n h
    exact escape_cut (e := [d]) (fun q => escape_short hd q) ih (fun n h ha => short_cut h ha n) n h
  | @code l c s t H _ ih =>
    intro p a n h
    exact escape_cut (e := 'u' :: l) (fun q => escape_code H q) ih (fun n h ha => code_cut (hex4_four H) h ha n) n h
  | @pair l l' a b c s t H H' ha hb hc _ ih =>
    intro p x n h
    exact escape_cut (e := 'u' :: (l ++ '\\' :: 'u' :: l')) (fun q => by simpa using escape_pair H H' ha hb hc q) ih
      (fun n h hx => pair_cut H (hex4_four H') (by omega) h hx n) n (by simpa using h)

/-! ### Numbers and constants -/

/-- A character of a number. -/
def NumChar (c : Char) : Prop := c.isDigit = true ∨ c = '-' ∨ c = '+' ∨ c = '.' ∨ c = 'e' ∨ c = 'E'

theorem numChar_ne {c d : Char} (h : NumChar c) (hd : d.isDigit = false ∧ d ≠ '-' ∧ d ≠ '+' ∧ d ≠ '.' ∧ d ≠ 'e' ∧ d ≠ 'E') : c ≠ d := by
  rintro rfl
  rcases h with h | h | h | h | h | h
  · rw [h] at hd; exact absurd hd.1 (by simp)
  all_goals simp [h] at hd

theorem numChar_ws {c : Char} (h : NumChar c) : isWs c = false := by
  rw [Bool.eq_false_iff]
  intro hc
  rcases isWs_iff.mp hc with rfl | rfl | rfl | rfl <;> exact numChar_ne h (by decide) rfl

theorem int_numChar {a : List Char} (h : IntSyntax a) : ∀ c ∈ a, NumChar c := by
  obtain ⟨sg, d, rfl, hs, hd, -⟩ := h
  intro c hc
  rcases List.mem_append.mp hc with hc | hc
  · rcases hs with rfl | rfl
    · simp at hc
    · simp at hc; right; left; exact hc
  · left; exact hd.2 c hc

theorem float_numChar {t : List Char} (h : FloatSyntax t) : ∀ c ∈ t, NumChar c := by
  obtain ⟨a, f, e, rfl, ha, hf, he, -⟩ := h
  intro c hc
  rcases List.mem_append.mp hc with hc | hc
  rcases List.mem_append.mp hc with hc | hc
  · exact int_numChar ha c hc
  · rcases hf with rfl | ⟨d, rfl, hd⟩
    · simp at hc
    · rcases List.mem_cons.mp hc with rfl | hc
      · simp [NumChar]
      · left; exact hd.2 c hc
  · rcases he with rfl | ⟨d, sg, g, rfl, hd, hs, hg⟩
    · simp at hc
    · rcases List.mem_cons.mp hc with rfl | hc
      · rcases hd with rfl | rfl <;> simp [NumChar]
      · rcases List.mem_append.mp hc with hc | hc
        · rcases hs with rfl | rfl | rfl
          · simp at hc
          · simp at hc; simp [NumChar, hc]
          · simp at hc; simp [NumChar, hc]
        · left; exact hg.2 c hc

theorem natPart_mem {t a r : List Char} (h : natPart t = some (a, r)) : ∀ c ∈ r, c ∈ t := by
  cases t with
  | nil => simp [natPart] at h
  | cons d t =>
    simp only [natPart] at h
    split_ifs at h
    · simp only [Option.some.injEq, Prod.mk.injEq] at h
      rw [← h.2]; intro c hc; simp [hc]
    · simp only [Option.some.injEq, Prod.mk.injEq] at h
      rw [← h.2]; intro c hc; exact List.mem_cons_of_mem _ ((List.dropWhile_sublist _).subset hc)

theorem intPart_mem {t a r : List Char} (h : intPart t = some (a, r)) : ∀ c ∈ r, c ∈ t := by
  cases t with
  | nil => simp [intPart] at h
  | cons d t =>
    simp only [intPart] at h
    split_ifs at h
    · rw [Option.map_eq_some_iff] at h
      obtain ⟨⟨b, s⟩, h1, h2⟩ := h
      cases h2
      intro c hc
      exact List.mem_cons_of_mem _ (natPart_mem h1 c hc)
    · exact natPart_mem h

theorem fracPart_mem (t : List Char) : ∀ c ∈ (fracPart t).2, c ∈ t := by
  cases t with
  | nil => simp [fracPart]
  | cons d t =>
    simp only [fracPart]
    split_ifs
    · intro c hc; exact List.mem_cons_of_mem _ ((List.dropWhile_sublist _).subset hc)
    · exact fun _ h => h

theorem signPart_mem (t : List Char) : ∀ c ∈ (signPart t).2, c ∈ t := by
  cases t with
  | nil => simp [signPart]
  | cons d t =>
    simp only [signPart]
    split_ifs
    · exact fun _ h => List.mem_cons_of_mem _ h
    · exact fun _ h => h

theorem expPart_mem (t : List Char) : ∀ c ∈ (expPart t).2, c ∈ t := by
  cases t with
  | nil => simp [expPart]
  | cons d t =>
    simp only [expPart]
    split_ifs
    · intro c hc; exact List.mem_cons_of_mem _ (signPart_mem t c ((List.dropWhile_sublist _).subset hc))
    · exact fun _ h => h

theorem number_mem {t r : List Char} {v : PyVal} (h : number F t = some (v, r)) : ∀ c ∈ r, c ∈ t := by
  simp only [number, Option.map_eq_some_iff] at h
  obtain ⟨⟨a, b⟩, h1, h2⟩ := h
  simp only [Prod.mk.injEq] at h2
  rw [← h2.2]
  intro c hc
  exact intPart_mem h1 c (fracPart_mem b c (expPart_mem _ c hc))

theorem lit_ne {a c : Char} {l t : List Char} (h : c ≠ a) : lit (a :: l) (c :: t) = none := by
  simp only [lit, if_neg (Ne.symm h)]

theorem numChar_letter {c : Char} (h : NumChar c) : c ≠ 'n' ∧ c ≠ 't' ∧ c ≠ 'f' ∧ c ≠ 'N' ∧ c ≠ 'I' :=
  ⟨numChar_ne h (by decide), numChar_ne h (by decide), numChar_ne h (by decide), numChar_ne h (by decide), numChar_ne h (by decide)⟩

theorem constants_numChar {t : List Char} (h : ∀ c ∈ t, NumChar c) (a : List Char × PyVal) (ha : a ∈ constants) : lit a.1 t = none := by
  cases t with
  | nil =>
    simp only [constants, List.mem_cons, List.not_mem_nil, or_false] at ha
    rcases ha with rfl | rfl | rfl | rfl | rfl | rfl <;> rfl
  | cons c t =>
    have hc := numChar_letter (h c (by simp))
    simp only [constants, List.mem_cons, List.not_mem_nil, or_false] at ha
    rcases ha with rfl | rfl | rfl | rfl | rfl | rfl
    · exact lit_ne hc.1
    · exact lit_ne hc.2.1
    · exact lit_ne hc.2.2.1
    · exact lit_ne hc.2.2.2.1
    · exact lit_ne hc.2.2.2.2
    · simp only [lit]
      split_ifs
      · cases t with
        | nil => rfl
        | cons d t => exact lit_ne (numChar_letter (h d (by simp))).2.2.2.2
      · rfl

/-- Reading the beginning of a number fails, or leaves characters of numbers. -/
def Stuck (x : Except Err (PyVal × List Char)) : Prop := x = bad ∨ ∃ w r, x = .ok (w, r) ∧ ∀ c ∈ r, NumChar c

theorem scalar_stuck {t : List Char} (h : ∀ c ∈ t, NumChar c) : Stuck (scalar F t) := by
  simp only [scalar]
  cases hn : number F t with
  | some x => obtain ⟨v, r⟩ := x; right; exact ⟨v, r, rfl, fun c hc => h c (number_mem hn c hc)⟩
  | none =>
    left
    have : constants.findSome? (fun a => (lit a.1 t).map fun r => (a.2, r)) = none := by
      rw [List.findSome?_eq_none_iff]
      intro a ha
      rw [constants_numChar h a ha]; rfl
    simp only [this]

theorem value_stuck {n : Nat} {t : List Char} (h : ∀ c ∈ t, NumChar c) : Stuck (value F (n + 1) t) := by
  cases t with
  | nil => left; simp only [value]
  | cons c t =>
    have hc := h c (by simp)
    rw [value_scalar (numChar_ne hc (by decide)) (numChar_ne hc (by decide)) (numChar_ne hc (by decide))]
    exact scalar_stuck h

theorem value_nil (n : Nat) : value F (n + 1) [] = bad := by simp only [value]

theorem const_cut {l : List Char} {v : PyVal} (hl : (l, v) ∈ constants) {p x : List Char} (h : p ++ x = l) (hx : x ≠ []) (n : Nat) :
    value F (n + 1) p = bad := by
  have hp : p = l.take p.length := by rw [← h]; simp
  have hlen : p.length < l.length := by
    have : x.length ≠ 0 := fun h => hx (List.length_eq_zero_iff.mp h)
    rw [← h, List.length_append]; omega
  simp only [constants, List.mem_cons, Prod.mk.injEq, List.not_mem_nil, or_false] at hl
  generalize p.length = k at hp hlen
  rcases hl with ⟨rfl, -⟩ | ⟨rfl, -⟩ | ⟨rfl, -⟩ | ⟨rfl, -⟩ | ⟨rfl, -⟩ | ⟨rfl, -⟩ <;> simp only [List.length_cons, List.length_nil] at hlen <;>
    interval_cases k <;> subst hp <;> simp [value, scalar, number, intPart, natPart, constants, lit, bad]

/-! ### Values -/

theorem stop_prefix {c x : List Char} (h : Stop (c ++ x)) : Stop c := by
  intro d hd
  refine h d ?_
  cases c with
  | nil => simp at hd
  | cons e c => simpa using hd

theorem skip_numChar {r : List Char} (h : ∀ c ∈ r, NumChar c) : skip r = [] ∨ ∃ c u, skip r = c :: u ∧ c ≠ ',' ∧ c ≠ ']' ∧ c ≠ '}' := by
  cases r with
  | nil => left; rfl
  | cons c r =>
    have hc := h c (by simp)
    right
    exact ⟨c, r, skip_cons (numChar_ws hc), numChar_ne hc (by decide), numChar_ne hc (by decide), numChar_ne hc (by decide)⟩

/-- What is after a value that was cut off. -/
theorem items_stuck {n : Nat} {p : List Char} (h : Stuck (value F n p)) : items F (n + 1) p = bad := by
  simp only [items]
  rcases h with h | ⟨w, r, h, hr⟩
  · rw [h]; rfl
  · rw [h]
    simp only [bind, Except.bind]
    rcases skip_numChar hr with h0 | ⟨c, u, h0, h1, h2, -⟩
    · rw [h0]
    · rw [h0]; simp only [h1, h2, if_false]

theorem items_nil (n : Nat) : items F (n + 2) [] = bad := items_stuck (.inl (value_nil n))

theorem members_nil (n : Nat) : members F (n + 1) [] = bad := by simp only [members]

theorem stop_colon : (':' : Char).isDigit = false ∧ (':' : Char) ≠ '.' ∧ (':' : Char) ≠ 'e' ∧ (':' : Char) ≠ 'E' := by decide

/-- An entry of a dictionary whose value, or what is after it, is cut off. -/
theorem members_value {n : Nat} {k s w1 w2 f : List Char} (hk : WritesStr k s) (h1 : Ws w1) (h2 : Ws w2) (hf : skip f = f)
    (hv : Stuck (value F n f) ∨ ∃ v r, value F n f = .ok (v, r) ∧ (skip r = [] ∨ ∃ r', skip r = ',' :: r' ∧ members F n (skip r') = bad)) :
    members F (n + 1) ('"' :: (s ++ '"' :: (w1 ++ ':' :: (w2 ++ f)))) = bad := by
  have h5 : skip (w2 ++ f) = f := by rw [skip_ws h2, hf]
  simp only [members, if_true, scan_str hk, bind, Except.bind, skip_ws_cons h1 (by decide : isWs ':' = false), h5]
  rcases hv with (h | ⟨w, r, h, hr⟩) | ⟨v, r, h, hr⟩
  · rw [h]; rfl
  · rw [h]
    simp only
    rcases skip_numChar hr with h0 | ⟨c, u, h0, h1, -, h2⟩
    · rw [h0]
    · rw [h0]; simp only [h1, h2, if_false]
  · rw [h]
    simp only
    rcases hr with h0 | ⟨r', h0, h3⟩
    · rw [h0]
    · rw [h0]; simp only [if_true, h3]; rfl

/-- An entry of a dictionary that is cut off before its value. -/
theorem members_key {n : Nat} {k s w1 x y : List Char} (hk : WritesStr k s) (h1 : Ws w1) {p : List Char}
    (h : p ++ x = '"' :: (s ++ '"' :: (w1 ++ ':' :: y))) :
    members F (n + 2) p = bad ∨ ∃ f, p = '"' :: (s ++ '"' :: (w1 ++ ':' :: f)) ∧ f ++ x = y := by
  cases p with
  | nil => left; exact members_nil _
  | cons q p =>
    simp only [List.cons_append, List.cons.injEq] at h
    obtain ⟨rfl, h⟩ := h
    rcases cut_app h with ⟨a, ha, h2⟩ | ⟨e, rfl, h2⟩
    · left
      simp only [members, if_true, scan_cut hk _ h2]
      rfl
    · cases e with
      | nil =>
        left
        have := scan_cut hk (p := s ++ []) (a := []) (s ++ []).length (by simp)
        simp only [members, if_true, this]
        rfl
      | cons q e =>
        simp only [List.cons_append, List.cons.injEq] at h2
        obtain ⟨rfl, h2⟩ := h2
        rcases cut_ws h1 (by decide) h2 with h3 | ⟨f, h3, h4, rfl⟩
        · left
          simp only [members, if_true, scan_str hk, bind, Except.bind, h3]
        · right
          exact ⟨f, rfl, h4⟩

theorem ws_of_skip {w : List Char} (h : skip w = []) : Ws w := by
  induction w with
  | nil => exact ws_nil
  | cons c w ih =>
    rw [skip, List.dropWhile_cons] at h
    split_ifs at h with hc
    intro d hd
    rcases List.mem_cons.mp hd with rfl | hd
    · exact isWs_iff.mp hc
    · exact ih h d hd

theorem skip_prefix {c : Char} {t f y : List Char} (hc : isWs c = false) (h : f ++ y = c :: t) : skip f = f := by
  cases f with
  | nil => rfl
  | cons d f =>
    simp only [List.cons_append, List.cons.injEq] at h
    exact skip_cons (h.1 ▸ hc)

mutual
/-- A value that is cut off. -/
theorem value_cut {v : PyVal} {t : List Char} (h : Writes F v t) {n : Nat} {p x : List Char} (hp : p ++ x = t) (hx : x ≠ [])
    (hn : 2 * p.length + 1 ≤ n) : value F n p = bad ∨ (∀ c ∈ t, NumChar c) ∧ Stuck (value F n p) := by
  obtain ⟨n, rfl⟩ : ∃ m, n = m + 1 := ⟨n - 1, by omega⟩
  have num : (∀ c ∈ t, NumChar c) → value F (n + 1) p = bad ∨ (∀ c ∈ t, NumChar c) ∧ Stuck (value F (n + 1) p) := fun h =>
    .inr ⟨h, value_stuck fun c hc => h c (by rw [← hp]; simp [hc])⟩
  cases h with
  | null => left; exact const_cut (l := "null".toList) (v := .none) (by simp [constants]) hp hx n
  | true => left; exact const_cut (l := "true".toList) (v := .bool true) (by simp [constants]) hp hx n
  | false => left; exact const_cut (l := "false".toList) (v := .bool false) (by simp [constants]) hp hx n
  | nan => left; exact const_cut (l := "NaN".toList) (v := .num (.flt .nan)) (by simp [constants]) hp hx n
  | pinf => left; exact const_cut (l := "Infinity".toList) (v := .num (.flt .pinf)) (by simp [constants]) hp hx n
  | ninf => left; exact const_cut (l := "-Infinity".toList) (v := .num (.flt .ninf)) (by simp [constants]) hp hx n
  | int i => exact num (by rw [← intText_eq]; exact int_numChar (int_syntax i))
  | negZero => exact num (by simp [NumChar])
  | float ht => exact num (float_numChar ht)
  | @str s u hs =>
    left
    cases p with
    | nil => exact value_nil n
    | cons q p =>
      simp only [List.cons_append, List.cons.injEq] at hp
      obtain ⟨rfl, hp⟩ := hp
      have : ∃ a, p ++ a = u := by
        rcases cut_app hp with ⟨a, -, ha⟩ | ⟨c, rfl, hc⟩
        · exact ⟨a, ha⟩
        · cases c with
          | nil => exact ⟨[], by simp⟩
          | cons d c => simp at hc; exact absurd hc.2.2 hx
      obtain ⟨a, ha⟩ := this
      simp only [value, if_true, scan_cut hs _ ha]
      rfl
  | @emptyList w hw =>
    left
    cases p with
    | nil => exact value_nil n
    | cons q p =>
      simp only [List.cons_append, List.cons.injEq] at hp
      obtain ⟨rfl, hp⟩ := hp
      rcases cut_ws hw (by decide) hp with h0 | ⟨f, -, h1, -⟩
      · simp only [value, (by decide : ('[' : Char) ≠ '"'), (by decide : ('[' : Char) ≠ '{'), if_false, if_true, h0]
      · simp at h1; exact absurd h1.2 hx
  | @emptyDict w hw =>
    left
    cases p with
    | nil => exact value_nil n
    | cons q p =>
      simp only [List.cons_append, List.cons.injEq] at hp
      obtain ⟨rfl, hp⟩ := hp
      rcases cut_ws hw (by decide) hp with h0 | ⟨f, -, h1, -⟩
      · simp only [value, (by decide : ('{' : Char) ≠ '"'), if_false, if_true, h0]
      · simp at h1; exact absurd h1.2 hx
  | @list l w u hw hi =>
    left
    cases p with
    | nil => exact value_nil n
    | cons q p =>
      simp only [List.cons_append, List.cons.injEq] at hp
      obtain ⟨rfl, hp⟩ := hp
      obtain ⟨c, t', he, h1, h2⟩ := items_head hi
      rw [he] at hp
      rcases cut_ws hw h1 hp with h0 | ⟨f, h0, h3, h4⟩
      · simp only [value, (by decide : ('[' : Char) ≠ '"'), (by decide : ('[' : Char) ≠ '{'), if_false, if_true, h0]
      · have hl : (c :: f).length ≤ p.length := by rw [h4]; simp
        have h5 := items_cut hi (n := n) (p := c :: f) (x := x) (by rw [he, List.cons_append, h3]) hx (by simp at hn hl ⊢; omega)
        simp only [value, (by decide : ('[' : Char) ≠ '"'), (by decide : ('[' : Char) ≠ '{'), if_false, if_true, h0, h2, h5]
        rfl
  | @dict fs gs w u hw hi hg =>
    left
    cases p with
    | nil => exact value_nil n
    | cons q p =>
      simp only [List.cons_append, List.cons.injEq] at hp
      obtain ⟨rfl, hp⟩ := hp
      obtain ⟨t', he⟩ := fields_head hi
      rw [he] at hp
      rcases cut_ws hw (by decide) hp with h0 | ⟨f, h0, h3, h4⟩
      · simp only [value, (by decide : ('{' : Char) ≠ '"'), if_false, if_true, h0]
      · have hl : ('"' :: f).length ≤ p.length := by rw [h4]; simp
        have h5 := members_cut hi (n := n) (p := '"' :: f) (x := x) (by rw [he, List.cons_append, h3]) hx (by simp at hn hl ⊢; omega)
        simp only [value, (by decide : ('{' : Char) ≠ '"'), if_false, if_true, h0, (by decide : ('"' : Char) ≠ '}'), h5]
        rfl
theorem items_cut {l : List PyVal} {u : List Char} (h : WritesItems F l u) {n : Nat} {p x : List Char} (hp : p ++ x = u) (hx : x ≠ [])
    (hn : 2 * p.length + 2 ≤ n) : items F n p = bad := by
  obtain ⟨n, rfl⟩ : ∃ m, n = m + 1 := ⟨n - 1, by omega⟩
  cases h with
  | @last v t w hv hw =>
    rcases cut_app hp with ⟨a, ha, h1⟩ | ⟨c, rfl, h1⟩
    · refine items_stuck ?_
      rcases value_cut hv (n := n) h1 ha (by omega) with h | h
      · exact .inl h
      · exact h.2
    · have h2 := value_writes hv (n := n) (r := c) (fun _ => stop_prefix (x := x) (h1 ▸ stop_ws hw stop_bracket)) (by simp at hn; omega)
      simp only [items, h2, bind, Except.bind]
      rcases cut_ws hw (by decide) h1 with h0 | ⟨f, -, h1, -⟩
      · rw [h0]
      · simp at h1; exact absurd h1.2 hx
  | @cons v t w w' l u hv hw hw' hi =>
    rcases cut_app hp with ⟨a, ha, h1⟩ | ⟨c, rfl, h1⟩
    · refine items_stuck ?_
      rcases value_cut hv (n := n) h1 ha (by omega) with h | h
      · exact .inl h
      · exact h.2
    · have h2 := value_writes hv (n := n) (r := c) (fun _ => stop_prefix (x := x) (h1 ▸ stop_ws hw stop_comma)) (by simp at hn; omega)
      simp only [items, h2, bind, Except.bind]
      rcases cut_ws hw (by decide) h1 with h0 | ⟨f, h0, h3, h4⟩
      · rw [h0]
      · rw [h0]
        simp only [if_true]
        obtain ⟨d, t', he, h5, -⟩ := items_head hi
        have hl : f.length < c.length := by rw [h4]; simp; omega
        have : items F n (skip f) = bad := by
          rw [he] at h3
          rcases cut_ws hw' h5 h3 with h6 | ⟨g, h6, h7, h8⟩
          · rw [h6]
            obtain ⟨m, rfl⟩ : ∃ m, n = m + 2 := ⟨n - 2, by simp at hn; omega⟩
            exact items_nil m
          · rw [h6]
            refine items_cut hi (x := x) (by rw [he, List.cons_append, h7]) hx ?_
            have : (d :: g).length ≤ f.length := by rw [h8]; simp
            simp at hn this ⊢; omega
        rw [this]; rfl
theorem members_cut {fs : List (String × PyVal)} {u : List Char} (h : WritesFields F fs u) {n : Nat} {p x : List Char} (hp : p ++ x = u)
    (hx : x ≠ []) (hn : 2 * p.length + 2 ≤ n) : members F n p = bad := by
  obtain ⟨n, rfl⟩ : ∃ m, n = m + 2 := ⟨n - 2, by omega⟩
  cases h with
  | @last k s v t w1 w2 w3 hk hw1 hw2 hv hw3 =>
    rcases members_key (F := F) (n := n) hk hw1 hp with h | ⟨f, rfl, h1⟩
    · exact h
    · obtain ⟨c, t', he, h3, -, -⟩ := writes_head hv
      have h1' := h1
      rw [he, List.cons_append] at h1'
      rcases cut_ws hw2 h3 h1' with h4 | ⟨g, h4, h5, h6⟩
      · have hf : Ws f := ws_of_skip h4
        have := members_value (F := F) (n := n + 1) (f := []) hk hw1 hf rfl (.inl (.inl (value_nil n)))
        rwa [List.append_nil] at this
      · rw [h6]
        have h7 : (c :: g) ++ x = t ++ (w3 ++ ['}']) := by rw [he, List.cons_append, List.cons_append, h5]
        have hl : (c :: g).length ≤ f.length := by rw [h6]; simp
        refine members_value hk hw1 hw2 (skip_cons h3) ?_
        rcases cut_app h7 with ⟨a, ha, h8⟩ | ⟨e, h8, h9⟩
        · left
          rcases value_cut hv (n := n + 1) h8 ha (by simp at hn hl ⊢; omega) with h | h
          · exact .inl h
          · exact h.2
        · right
          have hl2 := congrArg List.length h8
          refine ⟨v, e, ?_, .inl ?_⟩
          · rw [h8]
            refine value_writes hv (fun _ => stop_prefix (x := x) (h9 ▸ stop_ws hw3 stop_brace)) ?_
            simp at hn hl hl2 ⊢; omega
          · rcases cut_ws hw3 (by decide) h9 with h0 | ⟨f, -, h1, -⟩
            · exact h0
            · simp at h1; exact absurd h1.2 hx
  | @cons k s v t w1 w2 w3 w4 fs u hk hw1 hw2 hv hw3 hw4 hi =>
    rcases members_key (F := F) (n := n) hk hw1 hp with h | ⟨f, rfl, h1⟩
    · exact h
    · obtain ⟨c, t', he, h3, -, -⟩ := writes_head hv
      have h1' := h1
      rw [he, List.cons_append] at h1'
      rcases cut_ws hw2 h3 h1' with h4 | ⟨g, h4, h5, h6⟩
      · have hf : Ws f := ws_of_skip h4
        have := members_value (F := F) (n := n + 1) (f := []) hk hw1 hf rfl (.inl (.inl (value_nil n)))
        rwa [List.append_nil] at this
      · rw [h6]
        have h7 : (c :: g) ++ x = t ++ (w3 ++ ',' :: (w4 ++ u)) := by rw [he, List.cons_append, List.cons_append, h5]
        have hl : (c :: g).length ≤ f.length := by rw [h6]; simp
        refine members_value hk hw1 hw2 (skip_cons h3) ?_
        rcases cut_app h7 with ⟨a, ha, h8⟩ | ⟨e, h8, h9⟩
        · left
          rcases value_cut hv (n := n + 1) h8 ha (by simp at hn hl ⊢; omega) with h | h
          · exact .inl h
          · exact h.2
        · right
          have hl2 := congrArg List.length h8
          refine ⟨v, e, ?_, ?_⟩
          · rw [h8]
            refine value_writes hv (fun _ => stop_prefix (x := x) (h9 ▸ stop_ws hw3 stop_comma)) ?_
            simp at hn hl hl2 ⊢; omega
          · rcases cut_ws hw3 (by decide) h9 with h0 | ⟨e', h0, h10, h11⟩
            · exact .inl h0
            · right
              refine ⟨e', h0, ?_⟩
              have hl3 := congrArg List.length h11
              obtain ⟨t'', he'⟩ := fields_head hi
              rw [he'] at h10
              rcases cut_ws hw4 (by decide) h10 with h12 | ⟨e2, h12, h13, h14⟩
              · rw [h12]; exact members_nil n
              · rw [h12]
                have hl4 := congrArg List.length h14
                refine members_cut hi (x := x) (by rw [he', List.cons_append, h13]) hx ?_
                simp at hn hl hl2 hl3 hl4 ⊢; omega
end

/-- A text of a list, a dictionary, a string or a constant that is cut off is not a text. -/
theorem loads_cut {v : PyVal} {t : List Char} (h : Writes F v t) (hv : ∀ x, v ≠ .num x) {w p x : List Char} (hw : Ws w) (hp : p ++ x = t) (hx : x ≠ []) :
    loads F (w ++ p) = bad := by
  obtain ⟨c, t', he, h1, -, -⟩ := writes_head h
  have hs : skip (w ++ p) = p := by rw [skip_ws hw, skip_prefix h1 (hp.trans he)]
  have hc := value_cut h hp hx (n := 2 * (w ++ p).length + 1) (by simp)
  simp only [loads, hs]
  rcases hc with hc | ⟨hc, -⟩
  · rw [hc]; rfl
  · exfalso
    cases h with
    | int i => exact hv _ rfl
    | negZero => exact hv _ rfl
    | float _ => exact hv _ rfl
    | nan => exact hv _ rfl
    | pinf => exact hv _ rfl
    | ninf => exact hv _ rfl
    | null => exact absurd rfl (numChar_letter (hc 'n' (by simp))).1
    | true => exact absurd rfl (numChar_letter (hc 't' (by simp))).2.1
    | false => exact absurd rfl (numChar_letter (hc 'f' (by simp))).2.2.1
    | str _ => exact absurd rfl (numChar_ne (d := '"') (hc '"' (by simp)) (by decide))
    | emptyList _ => exact absurd rfl (numChar_ne (d := '[') (hc '[' (by simp)) (by decide))
    | list _ _ => exact absurd rfl (numChar_ne (d := '[') (hc '[' (by simp)) (by decide))
    | emptyDict _ => exact absurd rfl (numChar_ne (d := '{') (hc '{' (by simp)) (by decide))
    | dict _ _ _ => exact absurd rfl (numChar_ne (d := '{') (hc '{' (by simp)) (by decide))

end JsonText
end Paragami
