import Verif.Proofs.JsonTextPattern
import Verif.Proofs.JsonTextPrefix

/-! # The characters of JSON texts and their number -/

namespace Paragami
namespace JsonText
open Spec Pattern

variable {F : FloatText} {D : ℝ → Prop}

/-! ### Characters -/

/-- Printable ASCII. -/
def Ascii (t : List Char) : Prop := ∀ c ∈ t, 32 ≤ c.toNat ∧ c.toNat ≤ 126

theorem ascii_nil : Ascii [] := fun _ h => by simp at h

theorem ascii_append {s t : List Char} (hs : Ascii s) (ht : Ascii t) : Ascii (s ++ t) := fun c hc =>
  (List.mem_append.mp hc).elim (hs c) (ht c)

theorem ascii_cons {c : Char} {t : List Char} (hc : 32 ≤ c.toNat ∧ c.toNat ≤ 126) (ht : Ascii t) : Ascii (c :: t) := fun d hd =>
  (List.mem_cons.mp hd).elim (fun h => h ▸ hc) (ht d)

theorem ascii_digitChar {n : Nat} (h : n < 16) : 32 ≤ (Nat.digitChar n).toNat ∧ (Nat.digitChar n).toNat ≤ 126 := by
  interval_cases n <;> decide

theorem ascii_u4 (n : Nat) : Ascii (u4 n) := by
  have h : ∀ m, m % 16 < 16 := fun m => Nat.mod_lt _ (by omega)
  refine ascii_cons (by decide) (ascii_cons (by decide) ?_)
  exact ascii_cons (ascii_digitChar (h _)) (ascii_cons (ascii_digitChar (h _)) (ascii_cons (ascii_digitChar (h _))
    (ascii_cons (ascii_digitChar (h _)) ascii_nil)))

theorem ascii_esc (c : Char) : Ascii (esc c) := by
  have two : ∀ d : Char, 32 ≤ d.toNat ∧ d.toNat ≤ 126 → Ascii ['\\', d] := fun d hd => ascii_cons (by decide) (ascii_cons hd ascii_nil)
  simp only [esc]
  split_ifs with h1 h2 h3 h4 h5 h6 h7 h8
  · exact two _ (by decide)
  · exact two _ (by decide)
  · exact two _ (by decide)
  · exact two _ (by decide)
  · exact two _ (by decide)
  · exact two _ (by decide)
  · exact two _ (by decide)
  · exact ascii_cons h8 ascii_nil
  · exact ascii_u4 _
  · exact ascii_append (ascii_u4 _) (ascii_u4 _)

theorem ascii_quote (s : List Char) : Ascii (quote s) := by
  refine ascii_cons (by decide) (ascii_append ?_ (ascii_cons (by decide) ascii_nil))
  intro c hc
  obtain ⟨d, -, h⟩ := List.mem_flatMap.mp hc
  exact ascii_esc d c h

theorem ascii_numChar {t : List Char} (h : ∀ c ∈ t, NumChar c) : Ascii t := by
  intro c hc
  rcases h c hc with h | rfl | rfl | rfl | rfl | rfl
  · have := digit_code h; omega
  all_goals decide

mutual
theorem ascii_dumps (hF : Faithful F D) : ∀ {v : PyVal}, Printable D v → Ascii (dumps F v)
  | .none, _ => by simp only [dumps, Ascii]; decide
  | .bool true, _ => by simp only [dumps, Ascii]; decide
  | .bool false, _ => by simp only [dumps, Ascii]; decide
  | .num (.int i), _ => by simp only [dumps, numText]; exact ascii_numChar (int_numChar (int_syntax i))
  | .num (.flt .nan), _ => by simp only [dumps, numText, Ascii]; decide
  | .num (.flt .pinf), _ => by simp only [dumps, numText, Ascii]; decide
  | .num (.flt .ninf), _ => by simp only [dumps, numText, Ascii]; decide
  | .num (.flt (.fin r)), h => by
    simp only [Printable] at h
    simp only [dumps, numText]
    exact ascii_numChar (float_numChar (hF r h).1)
  | .str s, _ => by simp only [dumps]; exact ascii_quote _
  | .text j, _ => by simp only [dumps]; exact ascii_quote _
  | .list l, h => by
    simp only [Printable] at h
    simp only [dumps]
    exact ascii_cons (by decide) (ascii_append (ascii_items hF h).1 (ascii_cons (by decide) ascii_nil))
  | .tuple l, h => by
    simp only [Printable] at h
    simp only [dumps]
    exact ascii_cons (by decide) (ascii_append (ascii_items hF h).1 (ascii_cons (by decide) ascii_nil))
  | .dict fs, h => by
    simp only [Printable] at h
    simp only [dumps]
    exact ascii_cons (by decide) (ascii_append (ascii_fields hF h.2).1 (ascii_cons (by decide) ascii_nil))
theorem ascii_items (hF : Faithful F D) : ∀ {l : List PyVal}, PrintableList D l → Ascii (dumpsItems F l) ∧ Ascii (dumpsItemsTail F l)
  | [], _ => by simp only [dumpsItems, dumpsItemsTail]; exact ⟨ascii_nil, ascii_nil⟩
  | v :: l, h => by
    simp only [PrintableList] at h
    have h1 := ascii_append (ascii_dumps hF h.1) (ascii_items hF h.2).2
    simp only [dumpsItems, dumpsItemsTail]
    exact ⟨h1, ascii_cons (by decide) (ascii_cons (by decide) h1)⟩
theorem ascii_fields (hF : Faithful F D) : ∀ {l : List (String × PyVal)}, PrintableFields D l → Ascii (dumpsFields F l) ∧ Ascii (dumpsFieldsTail F l)
  | [], _ => by simp only [dumpsFields, dumpsFieldsTail]; exact ⟨ascii_nil, ascii_nil⟩
  | (k, v) :: l, h => by
    simp only [PrintableFields] at h
    have h1 := ascii_append (ascii_quote k.toList) (ascii_cons (c := ':') (by decide) (ascii_cons (c := ' ') (by decide)
      (ascii_append (ascii_dumps hF h.1) (ascii_fields hF h.2).2)))
    simp only [dumpsFields, dumpsFieldsTail]
    exact ⟨h1, ascii_cons (by decide) (ascii_cons (by decide) h1)⟩
end

/-! ### Size -/

/-- The number of quotation marks and backslashes. -/
def marks (t : List Char) : Nat := t.countP fun c => c == '"' || c == '\\'

theorem marks_append (s t : List Char) : marks (s ++ t) = marks s + marks t := List.countP_append

theorem marks_cons (c : Char) (t : List Char) : marks t ≤ marks (c :: t) := by
  simp only [marks, List.countP_cons]; omega

theorem marks_flatMap (t : List Char) : 2 * marks t ≤ marks (t.flatMap esc) := by
  induction t with
  | nil => simp [marks]
  | cons c t ih =>
    rw [List.flatMap_cons, marks_append]
    by_cases h1 : c = '"'
    · subst h1
      have : marks (esc '"') = 2 := by decide
      simp only [marks, List.countP_cons] at ih this ⊢
      simp; omega
    · by_cases h2 : c = '\\'
      · subst h2
        have : marks (esc '\\') = 2 := by decide
        simp only [marks, List.countP_cons] at ih this ⊢
        simp; omega
      · simp only [marks, List.countP_cons] at ih ⊢
        simp [h1, h2]; omega

theorem marks_quote (t : List Char) : 2 * marks t + 2 ≤ marks (quote t) := by
  have h := marks_flatMap t
  have h1 : marks (quote t) = 1 + (marks (t.flatMap esc) + 1) := by
    rw [quote, show '"' :: (t.flatMap esc ++ ['"']) = ['"'] ++ (t.flatMap esc ++ ['"']) from rfl, marks_append, marks_append]
    rfl
  omega

theorem marks_fields (fs : List (String × PyVal)) : 2 * fs.length + (fs.map fun f => marks (dumps F f.2)).sum ≤ marks (dumpsFields F fs) ∧
    2 * fs.length + (fs.map fun f => marks (dumps F f.2)).sum ≤ marks (dumpsFieldsTail F fs) := by
  induction fs with
  | nil => simp
  | cons f fs ih =>
    obtain ⟨k, v⟩ := f
    have h1 := marks_quote k.toList
    have h2 : marks (quote k.toList ++ ':' :: ' ' :: (dumps F v ++ dumpsFieldsTail F fs)) =
        marks (quote k.toList) + (marks (dumps F v) + marks (dumpsFieldsTail F fs)) := by
      rw [marks_append, ← marks_append (dumps F v)]
      simp [marks]
    have h3 := marks_cons ' ' (quote k.toList ++ ':' :: ' ' :: (dumps F v ++ dumpsFieldsTail F fs))
    have h4 := marks_cons ',' (' ' :: (quote k.toList ++ ':' :: ' ' :: (dumps F v ++ dumpsFieldsTail F fs)))
    simp only [dumpsFields, dumpsFieldsTail, List.length_cons, List.map_cons, List.sum_cons]
    constructor <;> omega

theorem marks_dict (fs : List (String × PyVal)) : 2 * fs.length + (fs.map fun f => marks (dumps F f.2)).sum ≤ marks (dumps F (.dict fs)) := by
  have h := (marks_fields (F := F) fs).1
  have h2 := marks_cons '{' (dumpsFields F fs ++ ['}'])
  rw [marks_append] at h2
  simp only [dumps]
  omega

theorem marks_toJson (F : FloatText) (p : Pattern) : 2 ^ (depth p + 3) ≤ marks (dumps F p.asDict) := by
  have hstr : ∀ s : String, 2 ≤ marks (dumps F (.str s)) := by
    intro s
    have := marks_quote s.toList
    simp only [dumps]; omega
  have htext : ∀ j, 2 * marks (dumps F j) ≤ marks (dumps F (.text j.norm)) := by
    intro j
    have := marks_quote (dumps F j)
    simp only [dumps, dumps_norm]; omega
  induction p using Pattern.ind (Q := fun es => 2 ^ (depthEs es + 3) ≤ 8 + ((contents es).map fun f => marks (dumps F f.2)).sum) with
  | hnum c s lb ub dv fd =>
    cases c <;> (simp only [depth, asDict]; refine le_trans ?_ (marks_dict _); simp only [List.length_cons, List.map_cons, List.sum_cons, List.length_nil]; omega)
  | hsim k s dv fd =>
    simp only [depth, asDict]; refine le_trans ?_ (marks_dict _); simp only [List.length_cons, List.map_cons, List.sum_cons, List.length_nil]; omega
  | hpsd n lb dv fd =>
    simp only [depth, asDict]; refine le_trans ?_ (marks_dict _); simp only [List.length_cons, List.map_cons, List.sum_cons, List.length_nil]; omega
  | harr s b fd ih =>
    simp only [depth, asDict]; refine le_trans ?_ (marks_dict _); simp only [List.length_cons, List.map_cons, List.sum_cons, List.length_nil]
    have := htext b.asDict
    have h2 : 2 ^ (depth b + 1 + 3) = 2 * 2 ^ (depth b + 3) := by ring
    omega
  | hdict es l fd ih =>
    simp only [depth, asDict]; refine le_trans ?_ (marks_dict _); simp only [List.length_cons, List.map_cons, List.sum_cons, List.length_nil]
    have := hstr Builtin.dict.typename
    have := marks_dict (F := F) (contents es)
    omega
  | hnil => simp [depthEs]
  | hcons k p r ihp ihr =>
    simp only [depthEs, contents, List.map_cons, List.sum_cons]
    have h0 := htext p.asDict
    have h2 : 2 ^ (depth p + 1 + 3) = 2 * 2 ^ (depth p + 3) := by ring
    rcases le_total (depth p + 1) (depthEs r) with h | h
    · rw [max_eq_right h]; omega
    · rw [max_eq_left h]; omega

/-! ### Decimal numbers as texts -/

/-- A finite decimal number. -/
def Decimal (r : ℝ) : Prop := ∃ (m : ℤ) (k : ℕ), r = m / 10 ^ k

/-- A way to write and read all finite decimal numbers: `m / 10 ^ k` is written as `m` `e-` `k`. -/
noncomputable def decimals : FloatText where
  repr r := by
    classical
    exact if h : Decimal r then intText h.choose ++ ('e' :: '-' :: Nat.toDigits 10 h.choose_spec.choose) else []
  float t :=
    match intPart t with
    | some (a, 'e' :: '-' :: d) => .fin (intVal a / 10 ^ Nat.ofDigitChars 10 d 0)
    | _ => .nan

theorem decimals_faithful : Faithful decimals Decimal := by
  intro r h
  obtain ⟨m, k, h1, h2⟩ : ∃ (m : ℤ) (k : ℕ), r = m / 10 ^ k ∧ decimals.repr r = intText m ++ ('e' :: '-' :: Nat.toDigits 10 k) := by
    refine ⟨_, _, h.choose_spec.choose_spec, ?_⟩
    simp only [decimals]; rw [dif_pos h]
  rw [h2]
  constructor
  · exact ⟨intText m, [], _, by simp, int_syntax m, .inl rfl, .inr ⟨'e', ['-'], _, rfl, .inl rfl, .inr (.inl rfl), (digits_nat k).1⟩, .inr (by simp)⟩
  · have h3 := intPart_syntax (int_syntax m) (r := 'e' :: '-' :: Nat.toDigits 10 k) (by simp)
    simp only [decimals, h3, intVal_intText, Nat.ofDigitChars_ten_toDigits]
    rw [h1]

/-- Every double is a finite decimal number. -/
theorem decimal_dyadic (m : ℤ) (e : ℤ) : Decimal (m * 2 ^ e) := by
  cases e with
  | ofNat n => exact ⟨m * 2 ^ n, 0, by push_cast; simp⟩
  | negSucc n =>
    refine ⟨m * 5 ^ (n + 1), n + 1, ?_⟩
    rw [zpow_negSucc, show (10 : ℝ) = 5 * 2 by norm_num, mul_pow]
    push_cast
    have : (5 : ℝ) ^ (n + 1) ≠ 0 := by positivity
    field_simp

end JsonText
end Paragami
