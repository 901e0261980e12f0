import Verif.Spec.Version
import Verif.Proofs.Str

/-! # Lemmas on the version of the package -/

namespace Paragami
namespace Version
open Spec

theorem isHex_iff {c : Char} : isHex c = true ↔ (c.isDigit = true ∨ c ∈ ['a', 'b', 'c', 'd', 'e', 'f']) := by
  simp [isHex, or_assoc]

theorem takeWhile_stop {p : Char → Bool} {a x : Text} {e : Char} (ha : ∀ c ∈ a, p c = true) (he : p e = false) :
    (a ++ e :: x).takeWhile p = a ∧ (a ++ e :: x).dropWhile p = e :: x := by
  constructor
  · rw [List.takeWhile_append_of_pos ha]; simp [he]
  · rw [List.dropWhile_append_of_pos ha]; simp [he]

theorem mem_takeWhile {p : Char → Bool} {c : Char} : ∀ {l : Text}, c ∈ l.takeWhile p → p c = true
  | [], h => by simp at h
  | a :: l, h => by
    rw [List.takeWhile_cons] at h
    split at h
    · rcases List.mem_cons.mp h with rfl | h
      · assumption
      · exact mem_takeWhile h
    · simp at h

theorem parse_of {t tag num hex : Text} (h : Describes t tag num hex) :
    parseDescribe t = some (tag, Nat.ofDigitChars 10 num 0, hex) := by
  obtain ⟨rfl, ⟨h1, h2⟩, ⟨h3, h4⟩, h5, h6⟩ := h
  have e : (tag ++ ['-'] ++ num ++ ['-', 'g'] ++ hex).reverse = hex.reverse ++ 'g' :: ('-' :: (num.reverse ++ '-' :: tag.reverse)) := by simp
  obtain ⟨a1, a2⟩ := takeWhile_stop (p := isHex) (a := hex.reverse) (x := '-' :: (num.reverse ++ '-' :: tag.reverse)) (e := 'g')
    (fun c hc => isHex_iff.mpr (h6 c (by simpa using hc))) (by decide)
  obtain ⟨b1, b2⟩ := takeWhile_stop (p := Char.isDigit) (a := num.reverse) (x := tag.reverse) (e := '-')
    (fun c hc => h4 c (by simpa using hc)) (by decide)
  unfold parseDescribe
  simp only [e, a1, a2, b1, b2, List.reverse_reverse]
  rw [if_pos ⟨h5, h3, by simpa using h1, by simpa using h2⟩]

theorem of_parse {t tag hex : Text} {n : Nat} (h : parseDescribe t = some (tag, n, hex)) :
    ∃ num, Describes t tag num hex ∧ n = Nat.ofDigitChars 10 num 0 := by
  unfold parseDescribe at h
  simp only at h
  split at h
  · rename_i r hr
    split at h
    · rename_i tg ht
      split at h
      · rename_i hc
        simp only [Option.some.injEq, Prod.mk.injEq] at h
        obtain ⟨rfl, rfl, rfl⟩ := h
        refine ⟨_, ⟨?_, ⟨by simpa using hc.2.2.1, by simpa using hc.2.2.2⟩, ⟨hc.2.1, fun c hm => ?_⟩, hc.1, fun c hm => ?_⟩, rfl⟩
        · have e1 := List.takeWhile_append_dropWhile (p := isHex) (l := t.reverse)
          have e2 := List.takeWhile_append_dropWhile (p := Char.isDigit) (l := r)
          rw [ht] at e2
          rw [hr] at e1
          have := congrArg List.reverse e1
          rw [List.reverse_reverse] at this
          generalize List.takeWhile isHex (List.reverse t) = X at *
          rw [← this]
          conv_lhs => rw [← e2]
          simp
        · exact mem_takeWhile (List.mem_reverse.mp hm)
        · exact isHex_iff.mp (mem_takeWhile (List.mem_reverse.mp hm))
      · simp at h
    · simp at h
  · simp at h

theorem dropPrefix_eq {p t r : Text} : dropPrefix? p t = some r ↔ t = p ++ r := by
  induction p generalizing t with
  | nil => simp [dropPrefix?, eq_comm]
  | cons a p ih =>
    cases t with
    | nil => simp [dropPrefix?]
    | cons b t =>
      simp only [dropPrefix?, List.cons_append, List.cons.injEq]
      split
      · rename_i e; subst e; simp [ih]
      · rename_i e; simp; intro h; exact absurd h.symm e

theorem isSpace_iff {c : Char} : isSpace c = true ↔ Space c := by
  have key : ∀ d : Char, c = d ↔ c.toNat = d.toNat := fun d => Char.toNat_inj.symm
  simp only [isSpace, Bool.or_eq_true, beq_iff_eq, key, Space]
  change ((((((c.toNat = 32) ∨ c.toNat = 9) ∨ c.toNat = 10) ∨ c.toNat = 13) ∨ c.toNat = 11) ∨ c.toNat = 12) ↔ _
  omega

theorem isSpace_false {c : Char} : isSpace c = false ↔ ¬ Space c := by rw [← isSpace_iff, Bool.not_eq_true]

theorem dropWhile_head {t : Text} (h : ∀ c ∈ t.head?, ¬ Space c) : t.dropWhile isSpace = t := by
  cases t with
  | nil => rfl
  | cons c t => simp [isSpace_false.mpr (h c (by simp))]

theorem strip_padded {t out : Text} (h : Trimmed t) (hp : Padded t out) : strip out = t := by
  obtain ⟨a, b, ha, hb, rfl⟩ := hp
  replace ha : ∀ c ∈ a, isSpace c = true := fun c hc => isSpace_iff.mpr (ha c hc)
  replace hb : ∀ c ∈ b, isSpace c = true := fun c hc => isSpace_iff.mpr (hb c hc)
  unfold strip
  rw [List.append_assoc, List.dropWhile_append_of_pos ha]
  cases t with
  | nil =>
    rw [List.nil_append]
    have : b.dropWhile isSpace = [] := by have := List.dropWhile_append_of_pos (l₂ := []) hb; simpa using this
    simp [this]
  | cons c t =>
    have : (c :: t ++ b).dropWhile isSpace = c :: t ++ b := by simp [isSpace_false.mpr (h.1 c (by simp))]
    rw [this, List.reverse_append, List.dropWhile_append_of_pos (by simpa using hb),
      dropWhile_head (fun c hc => h.2 c (by rw [List.head?_reverse] at hc; exact hc)), List.reverse_reverse]

theorem padded_strip (t : Text) : Padded (strip t) t := by
  have h1 := List.takeWhile_append_dropWhile (p := isSpace) (l := t)
  have h2 := List.takeWhile_append_dropWhile (p := isSpace) (l := (t.dropWhile isSpace).reverse)
  have h3 := congrArg List.reverse h2
  rw [List.reverse_reverse, List.reverse_append] at h3
  refine ⟨t.takeWhile isSpace, ((t.dropWhile isSpace).reverse.takeWhile isSpace).reverse, fun c hc => isSpace_iff.mp (mem_takeWhile hc),
    fun c hc => isSpace_iff.mp (mem_takeWhile (List.mem_reverse.mp hc)), ?_⟩
  unfold strip
  rw [List.append_assoc, h3, h1]

theorem padded_trans {a b c : Text} (h : Padded a b) (h' : Padded b c) : Padded a c := by
  obtain ⟨x, y, hx, hy, rfl⟩ := h
  obtain ⟨z, w, hz, hw, rfl⟩ := h'
  refine ⟨z ++ x, y ++ w, ?_, ?_, by simp⟩
  · intro c hc
    rcases List.mem_append.mp hc with hc | hc
    · exact hz c hc
    · exact hx c hc
  · intro c hc
    rcases List.mem_append.mp hc with hc | hc
    · exact hy c hc
    · exact hw c hc

theorem padded_self (t : Text) : Padded t t := ⟨[], [], by simp, by simp, by simp⟩

theorem strip_self {t : Text} (h : Trimmed t) : strip t = t := strip_padded h (padded_self t)

theorem trimmed_word {t : Text} (h : Word t) : Trimmed t :=
  ⟨fun c hc => h c (List.mem_of_mem_head? hc), fun c hc => h c (List.mem_of_getLast? hc)⟩

theorem replaceSpace_word {new a b : Text} (h : Word a) : replaceSpace new (a ++ ' ' :: b) = a ++ new ++ b := by
  induction a with
  | nil => simp [replaceSpace]
  | cons c a ih =>
    have hc : c ≠ ' ' := by
      rintro rfl
      exact h ' ' (by simp) (by simp [Space])
    simp only [List.cons_append, replaceSpace, if_neg hc]
    rw [ih fun c hc => h c (by simp [hc])]

theorem hex_not_dirty {x hex : Text} (h : Hex hex) : dirtySuffix.isSuffixOf (x ++ hex) = false := by
  rw [Bool.eq_false_iff]
  intro hd
  obtain ⟨y, hy⟩ := List.isSuffixOf_iff_suffix.mp hd
  obtain ⟨h1, h2⟩ := h
  have e := congrArg List.getLast? hy
  rw [List.getLast?_append_of_ne_nil _ h1, List.getLast?_append_of_ne_nil _ (by decide)] at e
  have hm : 'y' ∈ hex := List.mem_of_getLast? (by rw [← e]; rfl)
  have := h2 _ hm
  revert this
  decide

theorem mark_suffix {x hex : Text} (h : Hex hex) (d : Bool) : dirtySuffix.isSuffixOf (x ++ hex ++ dirtyMark d) = d := by
  cases d with
  | false => simpa [dirtyMark] using hex_not_dirty h
  | true => exact List.isSuffixOf_iff_suffix.mpr ⟨x ++ hex, rfl⟩

theorem mark_drop {x : Text} (d : Bool) :
    (if d then (x ++ dirtyMark d).take ((x ++ dirtyMark d).length - dirtySuffix.length) else x ++ dirtyMark d) = x := by
  cases d <;> simp [dirtyMark, dirtySuffix]

theorem head_dropWhile : ∀ (t : Text), ∀ c ∈ (t.dropWhile isSpace).head?, ¬ Space c
  | [], c, h => by simp at h
  | a :: t, c, h => by
    rw [List.dropWhile_cons] at h
    split at h
    · exact head_dropWhile t c h
    · rename_i hs
      simp at h
      subst h
      exact isSpace_false.mp (by simpa using hs)

theorem strip_trimmed (t : Text) : Trimmed (strip t) := by
  constructor
  · intro c hc
    obtain ⟨r, hr⟩ := List.dropWhile_suffix isSpace (l := (t.dropWhile isSpace).reverse)
    have := congrArg List.reverse hr
    rw [List.reverse_append, List.reverse_reverse] at this
    apply head_dropWhile t
    rw [← this]
    unfold strip at hc
    rw [Option.mem_def] at hc ⊢
    rw [List.head?_append, hc]
    rfl
  · intro c hc
    unfold strip at hc
    rw [List.getLast?_reverse] at hc
    exact head_dropWhile _ c hc

theorem strip_strip (t : Text) : strip (strip t) = strip t := strip_self (strip_trimmed t)

/-- The date as the code writes it. -/
theorem date_eq {day time zone out : Text} (h : (day ≠ [] ∧ Word day) ∧ Word time ∧ zone ≠ [] ∧ Word zone)
    (hp : Padded (day ++ [' '] ++ time ++ [' '] ++ zone) out) :
    replaceSpace [] (replaceSpace ['T'] (strip (strip out))) = day ++ ['T'] ++ time ++ zone := by
  obtain ⟨⟨h1, h2⟩, h3, h4, h5⟩ := h
  have ht : Trimmed (day ++ [' '] ++ time ++ [' '] ++ zone) := by
    constructor
    · intro c hc
      cases day with
      | nil => exact absurd rfl h1
      | cons a day => simp at hc; subst hc; exact h2 _ (by simp)
    · intro c hc
      rw [List.getLast?_append_of_ne_nil _ h4] at hc
      exact h5 c (List.mem_of_getLast? hc)
  rw [strip_padded ht hp, strip_self ht]
  have e : day ++ [' '] ++ time ++ [' '] ++ zone = day ++ ' ' :: (time ++ [' '] ++ zone) := by simp
  rw [e, replaceSpace_word h2]
  have e : day ++ ['T'] ++ (time ++ [' '] ++ zone) = (day ++ ['T'] ++ time) ++ ' ' :: zone := by simp
  rw [e, replaceSpace_word]
  · simp
  · intro c hc
    simp only [List.mem_append, List.mem_singleton] at hc
    rcases hc with (hc | rfl) | hc
    · exact h2 c hc
    · simp [Space]
    · exact h3 c hc

theorem num_digit {n : Nat} {c : Char} (h : c ∈ num n) : c.isDigit = true :=
  Paragami.digit_of_mem (n := n) (by rw [toList_toString]; exact h)

theorem num_ne (n : Nat) : num n ≠ [] := Nat.toDigits_ne_nil

theorem num_inj {m n : Nat} (h : num m = num n) : m = n :=
  toString_inj (String.toList_inj.mp (by rw [toList_toString, toList_toString]; exact h))

/-- The mark of a changed tree. -/
def dev (d : Bool) : Text := if d then ".dev0".toList else []

theorem body_inj {t t' : Text} {n n' : Nat} {d d' : Bool}
    (h : t ++ ".post".toList ++ num n ++ dev d = t' ++ ".post".toList ++ num n' ++ dev d') : t = t' ∧ n = n' ∧ d = d' := by
  have key : ∀ {t t' : Text} {n n' : Nat}, t ++ ".post".toList ++ num n ++ dev true ≠ t' ++ ".post".toList ++ num n' ++ dev false := by
    intro t t' n n' h
    have := congrArg List.reverse h
    replace this : ['0'] ++ ('v' :: (['e', 'd', '.'] ++ (t ++ ".post".toList ++ num n).reverse)) =
        (num n').reverse ++ 't' :: (['s', 'o', 'p', '.'] ++ t'.reverse) := by simpa [dev] using this
    obtain ⟨-, h2⟩ := Str.span_split (P := fun c => c.isDigit = true) (by simp)
      (fun c hc => num_digit (List.mem_reverse.mp hc)) (by simp) (by simp) this
    simp at h2
  have hd : d = d' := by
    cases d <;> cases d' <;> first | rfl | exact absurd h key | exact absurd h.symm key
  subst hd
  have := congrArg List.reverse (List.append_cancel_right h)
  replace this : (num n).reverse ++ 't' :: (['s', 'o', 'p', '.'] ++ t.reverse) =
      (num n').reverse ++ 't' :: (['s', 'o', 'p', '.'] ++ t'.reverse) := by simpa using this
  obtain ⟨h1, h2⟩ := Str.span_split (P := fun c => c.isDigit = true) (fun c hc => num_digit (List.mem_reverse.mp hc))
    (fun c hc => num_digit (List.mem_reverse.mp hc)) (by simp) (by simp) this
  exact ⟨by simpa using h2, num_inj (List.reverse_injective h1), rfl⟩

theorem body_plus {t : Text} (h : '+' ∉ t) (n : Nat) (d : Bool) : '+' ∉ t ++ ".post".toList ++ num n ++ dev d := by
  intro hc
  simp only [List.mem_append] at hc
  rcases hc with ((hc | hc) | hc) | hc
  · exact h hc
  · revert hc; decide
  · exact absurd (num_digit hc) (by decide)
  · cases d <;> revert hc <;> decide

theorem tagOf_some {p : Pieces} {t : Text} (h : p.closestTag = some t) (ht : t ≠ []) : tagOf p = some t := by
  simp [tagOf, h, ht]

theorem tagOf_none {p : Pieces} (h : p.closestTag = none ∨ p.closestTag = some []) : tagOf p = none := by
  rcases h with h | h <;> simp [tagOf, h]

theorem post_at {p : Pieces} (hp : p.closestTag ≠ some []) (h : AtTag p) : some (renderPost p) = p.closestTag := by
  obtain ⟨h1, h2, h3⟩ := h
  obtain ⟨t, ht⟩ := Option.ne_none_iff_exists'.mp h1
  rw [ht] at hp
  simp [renderPost, tagOf_some ht (by simpa using hp), h2, h3, ht]

theorem post_off {p : Pieces} (hp : p.closestTag ≠ some []) (hplus : '+' ∉ p.closestTag.getD []) (h : ¬ AtTag p) :
    renderPost p = (p.closestTag.getD ['0'] ++ ".post".toList ++ num p.distance ++ dev p.dirty) ++ '+' :: 'g' :: p.short := by
  cases ht : p.closestTag with
  | none => simp [renderPost, tagOf_none (.inl ht), dev]
  | some t =>
    rw [ht] at hp hplus
    have hd : p.distance ≠ 0 ∨ p.dirty = true := by
      by_contra hc
      push Not at hc
      exact h ⟨by simp [ht], hc.1, by simpa using hc.2⟩
    simp only [Option.getD_some] at hplus
    simp [renderPost, tagOf_some ht (by simpa using hp), hd, plusOrDot, hplus, dev]

/-- A text that ends in a number after a character that is not a digit. -/
theorem num_last {a b : Text} {e : Char} {n n' : Nat} (he : e.isDigit = false) (h : a ++ e :: num n = b ++ e :: num n') : a = b ∧ n = n' := by
  have := congrArg List.reverse h
  replace this : (num n).reverse ++ e :: a.reverse = (num n').reverse ++ e :: b.reverse := by simpa using this
  obtain ⟨h1, h2⟩ := Str.span_split (P := fun c => c.isDigit = true) (fun c hc => num_digit (List.mem_reverse.mp hc))
    (fun c hc => num_digit (List.mem_reverse.mp hc)) (by simp [he]) (by simp [he]) this
  exact ⟨by simpa using h2, num_inj (List.reverse_injective h1)⟩

/-- A text that starts with a number before a character that is not a digit. -/
theorem num_first {a b : Text} {e : Char} {n n' : Nat} (he : e.isDigit = false) (h : num n ++ e :: a = num n' ++ e :: b) : n = n' ∧ a = b := by
  obtain ⟨h1, h2⟩ := Str.span_split (P := fun c => c.isDigit = true) (fun c hc => num_digit hc) (fun c hc => num_digit hc) (by simp [he]) (by simp [he]) h
  exact ⟨num_inj h1, by simpa using h2⟩

theorem textLe_iff {s t : Text} : textLe s t = true ↔ TextLe s t := by
  induction s generalizing t with
  | nil => simp [textLe, TextLe.nil]
  | cons a s ih =>
    cases t with
    | nil => simp only [textLe, Bool.false_eq_true, false_iff]; intro h; cases h
    | cons b t =>
      simp only [textLe]
      split
      · rename_i e; subst e
        rw [ih]
        constructor
        · exact TextLe.cons a
        · intro h
          cases h with
          | less _ _ h => exact absurd h (lt_irrefl _)
          | cons _ h => exact h
      · rename_i e
        rw [decide_eq_true_iff]
        constructor
        · exact fun h => TextLe.less _ _ h
        · intro h
          cases h with
          | less _ _ h => exact h
          | cons _ h => exact absurd rfl e

theorem textLe_trans {a b c : Text} (h : TextLe a b) (h' : TextLe b c) : TextLe a c := by
  induction h generalizing c with
  | nil t => exact .nil _
  | less s t hl =>
    cases h' with
    | less _ _ h => exact .less _ _ (hl.trans h)
    | cons _ h => exact .less _ _ hl
  | cons a h ih =>
    cases h' with
    | less _ _ h => exact .less _ _ h
    | cons _ h => exact .cons a (ih h)

theorem textLe_total (a b : Text) : TextLe a b ∨ TextLe b a := by
  induction a generalizing b with
  | nil => exact .inl (.nil _)
  | cons x a ih =>
    cases b with
    | nil => exact .inr (.nil _)
    | cons y b =>
      rcases lt_trichotomy x.toNat y.toNat with h | h | h
      · exact .inl (.less _ _ h)
      · obtain rfl : x = y := Char.toNat_inj.mp h
        rcases ih b with h | h
        · exact .inl (.cons x h)
        · exact .inr (.cons x h)
      · exact .inr (.less _ _ h)

theorem textLe_antisymm {a b : Text} (h : TextLe a b) (h' : TextLe b a) : a = b := by
  induction h with
  | nil t => cases h'; rfl
  | less s t hl =>
    cases h' with
    | less _ _ h => omega
    | cons _ h => omega
  | cons a h ih =>
    cases h' with
    | less _ _ h => omega
    | cons _ h => rw [ih h]

theorem sorted_pairwise (l : List Text) : (sorted l).Pairwise TextLe := by
  have := List.pairwise_mergeSort (le := textLe)
    (fun a b c h h' => textLe_iff.mpr (textLe_trans (textLe_iff.mp h) (textLe_iff.mp h')))
    (fun a b => by rcases textLe_total a b with h | h <;> simp [textLe_iff.mpr h]) l
  exact this.imp fun h => textLe_iff.mp h

/-- The first of the sorted list with a prefix is the least one with it. -/
theorem least {l : List Text} {p r : Text} {rs} (h : (sorted l).filterMap (dropPrefix? p) = r :: rs) :
    p ++ r ∈ l ∧ ∀ t, p ++ t ∈ l → TextLe (p ++ r) (p ++ t) := by
  have hm : ∀ t, t ∈ sorted l ↔ t ∈ l := fun t => List.mem_mergeSort
  have hr : r ∈ (sorted l).filterMap (dropPrefix? p) := by rw [h]; simp
  obtain ⟨x, hx, hd⟩ := List.mem_filterMap.mp hr
  rw [dropPrefix_eq] at hd
  subst hd
  refine ⟨(hm _).mp hx, fun t ht => ?_⟩
  have hs : ((sorted l).filterMap (dropPrefix? p)).Pairwise fun a b => TextLe (p ++ a) (p ++ b) := by
    rw [List.pairwise_filterMap]
    refine (sorted_pairwise l).imp fun {a b} hab => ?_
    intro a' ha b' hb
    rw [dropPrefix_eq] at ha hb
    subst ha hb
    exact hab
  rw [h] at hs
  have hin : t ∈ (sorted l).filterMap (dropPrefix? p) := List.mem_filterMap.mpr ⟨_, (hm _).mpr ht, dropPrefix_eq.mpr rfl⟩
  rw [h, List.mem_cons] at hin
  rcases hin with rfl | hin
  · rcases textLe_total (p ++ t) (p ++ t) with h | h <;> exact h
  · exact List.rel_of_pairwise_cons hs hin

theorem textLe_append {p a b : Text} : TextLe (p ++ a) (p ++ b) ↔ TextLe a b := by
  induction p with
  | nil => rfl
  | cons c p ih =>
    rw [← ih]
    constructor
    · intro h
      cases h with
      | less _ _ h => exact absurd h (lt_irrefl _)
      | cons _ h => exact h
    · exact TextLe.cons c

theorem splitComma_ne (t : Text) : splitComma t ≠ [] := by
  cases t with
  | nil => simp [splitComma]
  | cons c t =>
    simp only [splitComma]
    split
    · simp
    · split <;> simp

theorem splitComma_none {t : Text} (h : ',' ∉ t) : splitComma t = [t] := by
  induction t with
  | nil => rfl
  | cons c t ih =>
    simp only [List.mem_cons, not_or] at h
    simp only [splitComma, if_neg (Ne.symm h.1), ih h.2]

theorem splitComma_comma {t r : Text} (h : ',' ∉ t) : splitComma (t ++ ',' :: r) = t :: splitComma r := by
  induction t with
  | nil => simp [splitComma]
  | cons c t ih =>
    simp only [List.mem_cons, not_or] at h
    simp only [List.cons_append, splitComma, if_neg (Ne.symm h.1), ih h.2]

/-- The references, joined as git joins them, are read back. -/
theorem refs_read : ∀ {rs : List Text}, rs ≠ [] → (∀ r ∈ rs, ',' ∉ r ∧ Trimmed r) →
    (splitComma ([',', ' '].intercalate rs)).map strip = rs
  | [], h, _ => absurd rfl h
  | [r], _, h => by
    obtain ⟨h1, h2⟩ := h r (by simp)
    simp [List.intercalate, splitComma_none h1, strip_self h2]
  | r :: r' :: rs, _, h => by
    obtain ⟨h1, h2⟩ := h r (by simp)
    have ih := refs_read (rs := r' :: rs) (by simp) fun r hr => h r (by simp [hr])
    have e : [',', ' '].intercalate (r :: r' :: rs) = r ++ ',' :: (' ' :: [',', ' '].intercalate (r' :: rs)) := by
      simp [List.intercalate]
    rw [e, splitComma_comma h1, List.map_cons, strip_self h2]
    congr 1
    have : ∀ x : Text, (splitComma (' ' :: x)).map strip = (splitComma x).map strip := by
      intro x
      simp only [splitComma, if_neg (show ' ' ≠ ',' by decide)]
      have hx := splitComma_ne x
      cases hs : splitComma x with
      | nil => exact absurd hs hx
      | cons w ws =>
        simp only [List.map_cons, List.cons.injEq, and_true]
        unfold strip
        rw [List.dropWhile_cons_of_pos (by decide)]
    exact (this _).trans ih

theorem stripParens_eq {t : Text} (h : ∀ c ∈ t.head?, c ≠ '(' ∧ c ≠ ')') (h' : ∀ c ∈ t.getLast?, c ≠ '(' ∧ c ≠ ')') :
    stripParens ('(' :: (t ++ [')'])) = t := by
  unfold stripParens
  rw [List.dropWhile_cons_of_pos (by decide)]
  cases t with
  | nil => decide
  | cons c t =>
    have h1 := h c (by simp)
    rw [List.cons_append, List.dropWhile_cons_of_neg (by simpa using h1), ← List.cons_append, List.reverse_append]
    rw [List.reverse_singleton, List.singleton_append, List.dropWhile_cons_of_pos (by decide)]
    have : ((c :: t).reverse).dropWhile (fun c => c == '(' || c == ')') = (c :: t).reverse := by
      rw [← List.head?_reverse] at h'
      generalize (c :: t).reverse = y at h'
      cases y with
      | nil => rfl
      | cons d y => rw [List.dropWhile_cons_of_neg (by simpa using h' d (by simp))]
    rw [this, List.reverse_reverse]

end Version
end Paragami
