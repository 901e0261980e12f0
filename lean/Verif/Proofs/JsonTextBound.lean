import Verif.Proofs.JsonText
import Verif.Proofs.NonfreeTrip

/-! # Reading consumes characters, and the bounds on the recursion are never reached -/

set_option linter.unusedSimpArgs false

namespace Paragami
namespace JsonText
open Spec Pattern

theorem bad_ne {α : Type} {x : α} : ¬ (bad : Except Err α) = .ok x := by simp [bad]

theorem hex4_length {t r : List Char} {u : Nat} (h : hex4 t = .ok (u, r)) : r.length < t.length := by
  rcases t with _ | ⟨a, _ | ⟨b, _ | ⟨c, _ | ⟨d, t⟩⟩⟩⟩
  · exact absurd h bad_ne
  · exact absurd h bad_ne
  · exact absurd h bad_ne
  · exact absurd h bad_ne
  · simp only [hex4] at h
    split at h
    · cases h; simp; omega
    · exact absurd h bad_ne

theorem unicode_length {t r : List Char} {c : Option Char} (h : unicode t = .ok (c, r)) : r.length < t.length := by
  obtain ⟨⟨u, t1⟩, h1, h⟩ := bind_ok h
  have hl := hex4_length h1
  simp only at h
  split at h
  · split at h
    · rename_i t2
      obtain ⟨⟨w, t3⟩, h2, h⟩ := bind_ok h
      have hl2 := hex4_length h2
      simp only at h
      split at h
      · simp only [Except.ok.injEq, Prod.mk.injEq] at h
        rw [← h.2]; simp at hl; omega
      · cases h; exact hl
    · cases h; exact hl
  · split at h
    · cases h; exact hl
    · simp only [Except.ok.injEq, Prod.mk.injEq] at h
      rw [← h.2]; exact hl

theorem escape_length {t r : List Char} {c : Option Char} (h : escape t = .ok (c, r)) : r.length < t.length := by
  cases t with
  | nil => exact absurd h bad_ne
  | cons d t =>
    simp only [escape] at h
    split at h
    · have := unicode_length h; simp; omega
    repeat' split at h
    all_goals first | (cases h; simp) | exact absurd h bad_ne

theorem scan_length : ∀ {n : Nat} {t s r : List Char}, scanString n t = .ok (s, r) → s.length + r.length < t.length
  | 0, _, _, _, h => absurd h bad_ne
  | _ + 1, [], _, _, h => absurd h bad_ne
  | n + 1, c :: t, s, r, h => by
    simp only [scanString] at h
    split at h
    · cases h; simp
    split at h
    · obtain ⟨⟨d, t1⟩, h1, h⟩ := bind_ok h
      obtain ⟨⟨s1, t2⟩, h2, h⟩ := bind_ok h
      have := escape_length h1
      have := scan_length h2
      simp only at this h
      split at h
      · cases h; simp; omega
      · cases h
    split at h
    · exact absurd h bad_ne
    · obtain ⟨⟨s1, t2⟩, h2, h⟩ := bind_ok h
      have := scan_length h2
      cases h; simp; omega

/-- The bound in `scanString` does not matter. -/
theorem scan_fuel : ∀ {n m : Nat} {t : List Char}, t.length ≤ n → t.length ≤ m → scanString n t = scanString m t
  | 0, 0, _, _, _ => rfl
  | 0, m + 1, t, h, _ => by
    obtain rfl : t = [] := List.length_eq_zero_iff.mp (by omega)
    rfl
  | n + 1, 0, t, _, h => by
    obtain rfl : t = [] := List.length_eq_zero_iff.mp (by omega)
    rfl
  | n + 1, m + 1, [], _, _ => rfl
  | n + 1, m + 1, c :: t, h, h' => by
    simp only [List.length_cons, Nat.add_le_add_iff_right] at h h'
    simp only [scanString]
    split
    · rfl
    split
    · cases he : escape t with
      | error e => rfl
      | ok x =>
        obtain ⟨d, t1⟩ := x
        have := escape_length he
        simp only [bind, Except.bind, scan_fuel (n := n) (m := m) (t := t1) (by omega) (by omega)]
    split
    · rfl
    · simp only [bind, Except.bind, scan_fuel (n := n) (m := m) (t := t) h h']

theorem length_dropWhile (P : Char → Bool) (t : List Char) : (t.dropWhile P).length ≤ t.length := (List.dropWhile_sublist _).length_le

theorem natPart_length {t a r : List Char} (h : natPart t = some (a, r)) : r.length < t.length := by
  cases t with
  | nil => cases h
  | cons c t =>
    simp only [natPart] at h
    have := length_dropWhile Char.isDigit t
    repeat' split at h
    all_goals first | (cases h; simp; try omega) | cases h

theorem intPart_length {t a r : List Char} (h : intPart t = some (a, r)) : r.length < t.length := by
  cases t with
  | nil => cases h
  | cons c t =>
    simp only [intPart] at h
    split at h
    · cases hn : natPart t with
      | none => rw [hn] at h; cases h
      | some x =>
        obtain ⟨a', r'⟩ := x
        rw [hn] at h
        have := natPart_length hn
        cases h; simp; omega
    · exact natPart_length h

theorem fracPart_length (t : List Char) : (fracPart t).2.length ≤ t.length := by
  cases t with
  | nil => simp [fracPart]
  | cons c t =>
    simp only [fracPart]
    have := length_dropWhile Char.isDigit t
    split <;> simp; omega

theorem signPart_length (t : List Char) : (signPart t).2.length ≤ t.length := by
  cases t with
  | nil => simp [signPart]
  | cons c t => simp only [signPart]; split <;> simp

theorem expPart_length (t : List Char) : (expPart t).2.length ≤ t.length := by
  cases t with
  | nil => simp [expPart]
  | cons c t =>
    simp only [expPart]
    have := length_dropWhile Char.isDigit (signPart t).2
    have := signPart_length t
    split <;> simp; omega

variable {F : FloatText}

theorem number_length {t r : List Char} {x : PyVal} (h : number F t = some (x, r)) : r.length < t.length := by
  simp only [number] at h
  cases hi : intPart t with
  | none => rw [hi] at h; cases h
  | some a =>
    obtain ⟨a, b⟩ := a
    rw [hi] at h
    have h1 := intPart_length hi
    have h2 := fracPart_length b
    have h3 := expPart_length (fracPart b).2
    simp only [Option.map_some, Option.some.injEq, Prod.mk.injEq] at h
    rw [← h.2]; omega

theorem lit_length : ∀ {l t r : List Char}, lit l t = some r → r.length + l.length = t.length
  | [], t, r, h => by cases h; simp
  | _ :: _, [], _, h => by cases h
  | a :: l, c :: t, r, h => by
    simp only [lit] at h
    split at h
    · have := lit_length h; simp; omega
    · cases h

theorem constants_ne : ∀ a ∈ constants, 0 < a.1.length := by decide

/-- What `scalar` returns: never a string, and a shorter rest. -/
theorem scalar_ok {t r : List Char} {v : PyVal} (h : scalar F t = .ok (v, r)) : r.length < t.length ∧
    (v = .none ∨ (∃ b, v = .bool b) ∨ ∃ x, v = .num x) := by
  simp only [scalar] at h
  cases hn : number F t with
  | some x =>
    rw [hn] at h
    obtain ⟨x, b⟩ := x
    cases h
    refine ⟨number_length hn, .inr (.inr ?_)⟩
    simp only [number] at hn
    cases hi : intPart t with
    | none => rw [hi] at hn; cases hn
    | some a =>
      rw [hi] at hn
      simp only [Option.map_some, Option.some.injEq, Prod.mk.injEq] at hn
      rw [← hn.1]
      split
      · exact ⟨_, rfl⟩
      · exact ⟨_, rfl⟩
  | none =>
    rw [hn] at h
    simp only at h
    split at h
    · rename_i x hx
      cases h
      obtain ⟨a, ha, hl⟩ := List.exists_of_findSome?_eq_some hx
      cases hr : lit a.1 t with
      | none => rw [hr] at hl; cases hl
      | some r' =>
        rw [hr] at hl
        have h1 := lit_length hr
        have h2 := constants_ne a ha
        simp only [Option.map_some, Option.some.injEq, Prod.mk.injEq] at hl
        refine ⟨by rw [← hl.2]; omega, ?_⟩
        rw [← hl.1]
        simp only [constants, List.mem_cons, List.not_mem_nil, or_false] at ha
        rcases ha with rfl | rfl | rfl | rfl | rfl | rfl <;> simp
    · exact absurd h bad_ne

theorem scalar_modelled {t : List Char} : scalar F t ≠ .error .unmodelled := by
  simp only [scalar]
  split
  · simp
  · split <;> simp [bad]

mutual
/-- All strings in the value are shorter than `n`. -/
def StrLt (n : Nat) : PyVal → Prop
  | .str s => s.length < n
  | .list l => StrLtList n l
  | .dict fs => StrLtFields n fs
  | _ => True
def StrLtList (n : Nat) : List PyVal → Prop
  | [] => True
  | v :: l => StrLt n v ∧ StrLtList n l
def StrLtFields (n : Nat) : List (String × PyVal) → Prop
  | [] => True
  | (_, v) :: fs => StrLt n v ∧ StrLtFields n fs
end

mutual
theorem StrLt.mono {n m : Nat} (h : n ≤ m) : ∀ {v : PyVal}, StrLt n v → StrLt m v
  | .str _, hv => by simp only [StrLt] at hv ⊢; omega
  | .list _, hv => StrLtList.mono h hv
  | .dict _, hv => StrLtFields.mono h hv
  | .none, _ => trivial
  | .bool _, _ => trivial
  | .num _, _ => trivial
  | .tuple _, _ => trivial
  | .text _, _ => trivial
theorem StrLtList.mono {n m : Nat} (h : n ≤ m) : ∀ {l : List PyVal}, StrLtList n l → StrLtList m l
  | [], _ => trivial
  | _ :: _, hl => ⟨StrLt.mono h hl.1, StrLtList.mono h hl.2⟩
theorem StrLtFields.mono {n m : Nat} (h : n ≤ m) : ∀ {l : List (String × PyVal)}, StrLtFields n l → StrLtFields m l
  | [], _ => trivial
  | (_, _) :: _, hl => ⟨StrLt.mono h hl.1, StrLtFields.mono h hl.2⟩
end

theorem strLtFields_iff {n : Nat} {fs : List (String × PyVal)} : StrLtFields n fs ↔ ∀ f ∈ fs, StrLt n f.2 := by
  induction fs with
  | nil => simp [StrLtFields]
  | cons f fs ih => obtain ⟨k, v⟩ := f; simp [StrLtFields, ih]

theorem strLt_assign {n : Nat} {fs : List (String × PyVal)} {k : String} {v : PyVal} (h : ∀ f ∈ fs, StrLt n f.2) (hv : StrLt n v) :
    ∀ f ∈ assign fs k v, StrLt n f.2 := by
  induction fs with
  | nil => intro f hf; simp [assign] at hf; rw [hf]; exact hv
  | cons g fs ih =>
    obtain ⟨k', v'⟩ := g
    simp only [assign]
    split
    · intro f hf
      rcases List.mem_cons.mp hf with rfl | hf
      · exact hv
      · exact h f (by simp [hf])
    · intro f hf
      rcases List.mem_cons.mp hf with rfl | hf
      · exact h (k', v') (by simp)
      · exact ih (fun g hg => h g (by simp [hg])) f hf

theorem strLt_pyDict {n : Nat} {fs : List (String × PyVal)} (h : StrLtFields n fs) : StrLtFields n (pyDict fs) := by
  rw [strLtFields_iff] at h ⊢
  have : ∀ (gs acc : List (String × PyVal)), (∀ f ∈ gs, StrLt n f.2) → (∀ f ∈ acc, StrLt n f.2) →
      ∀ f ∈ gs.foldl (fun d f => assign d f.1 f.2) acc, StrLt n f.2 := by
    intro gs
    induction gs with
    | nil => exact fun acc _ ha => ha
    | cons g gs ih => exact fun acc hg ha => ih _ (fun f hf => hg f (by simp [hf])) (strLt_assign ha (hg g (by simp)))
  exact this fs [] h (by simp)

mutual
theorem value_ok : ∀ {n : Nat} {t r : List Char} {v : PyVal}, value F n t = .ok (v, r) → r.length < t.length ∧ StrLt t.length v
  | 0, _, _, _, h => by simp [value] at h
  | _ + 1, [], _, _, h => by simp [value, bad] at h
  | n + 1, c :: t, r, v, h => by
    simp only [value] at h
    have hs := length_skip t
    split at h
    · obtain ⟨⟨s, r1⟩, h1, h⟩ := bind_ok h
      have := scan_length h1
      cases h
      simp only [StrLt, String.length_ofList, List.length_cons]; omega
    split at h
    · split at h
      · exact absurd h bad_ne
      · rename_i d u hd
        split at h
        · cases h
          rw [hd] at hs
          simp only [StrLt, StrLtFields, List.length_cons] at hs ⊢
          exact ⟨by omega, trivial⟩
        · obtain ⟨⟨fs, r1⟩, h1, h⟩ := bind_ok h
          have h2 := members_ok h1
          cases h
          rw [hd] at hs
          refine ⟨by simp only [List.length_cons] at hs h2 ⊢; omega, ?_⟩
          exact strLt_pyDict (StrLtFields.mono (by simp only [List.length_cons] at hs ⊢; omega) h2.2)
    split at h
    · split at h
      · exact absurd h bad_ne
      · rename_i d u hd
        split at h
        · cases h
          rw [hd] at hs
          simp only [StrLt, StrLtList, List.length_cons] at hs ⊢
          exact ⟨by omega, trivial⟩
        · obtain ⟨⟨fs, r1⟩, h1, h⟩ := bind_ok h
          have h2 := items_ok h1
          cases h
          rw [hd] at hs
          refine ⟨by simp only [List.length_cons] at hs h2 ⊢; omega, ?_⟩
          exact StrLtList.mono (by simp only [List.length_cons] at hs ⊢; omega) h2.2
    · obtain ⟨h1, h2⟩ := scalar_ok h
      refine ⟨h1, ?_⟩
      rcases h2 with rfl | ⟨b, rfl⟩ | ⟨x, rfl⟩ <;> trivial
theorem items_ok : ∀ {n : Nat} {t r : List Char} {l : List PyVal}, items F n t = .ok (l, r) → r.length < t.length ∧ StrLtList t.length l
  | 0, _, _, _, h => by simp [items] at h
  | n + 1, t, r, l, h => by
    simp only [items] at h
    obtain ⟨⟨v, r1⟩, h1, h⟩ := bind_ok h
    obtain ⟨h2, h3⟩ := value_ok h1
    have hs := length_skip r1
    simp only at h
    split at h
    · exact absurd h bad_ne
    · rename_i d u hd
      rw [hd] at hs
      have hs2 := length_skip u
      simp only [List.length_cons] at hs
      split at h
      · obtain ⟨⟨l1, r2⟩, h4, h⟩ := bind_ok h
        obtain ⟨h5, h6⟩ := items_ok h4
        cases h
        refine ⟨?_, h3, StrLtList.mono (by omega) h6⟩
        simp only; omega
      · split at h
        · cases h; exact ⟨by omega, h3, trivial⟩
        · exact absurd h bad_ne
theorem members_ok : ∀ {n : Nat} {t r : List Char} {l : List (String × PyVal)}, members F n t = .ok (l, r) →
    r.length < t.length ∧ StrLtFields t.length l
  | 0, _, _, _, h => by simp [members] at h
  | _ + 1, [], _, _, h => by simp [members, bad] at h
  | n + 1, q :: t, r, l, h => by
    simp only [members] at h
    split at h
    · obtain ⟨⟨k, r0⟩, h0, h⟩ := bind_ok h
      have hl0 := scan_length h0
      have hs0 := length_skip r0
      simp only at h
      split at h
      · exact absurd h bad_ne
      rename_i d0 u0 hd0
      rw [hd0] at hs0
      simp only [List.length_cons] at hs0
      have hs1 := length_skip u0
      split at h
      · obtain ⟨⟨v, r1⟩, h1, h⟩ := bind_ok h
        obtain ⟨h2, h3⟩ := value_ok h1
        have hs := length_skip r1
        simp only at h
        split at h
        · exact absurd h bad_ne
        · rename_i d u hd
          rw [hd] at hs
          have hs2 := length_skip u
          simp only [List.length_cons] at hs ⊢
          split at h
          · obtain ⟨⟨l1, r2⟩, h4, h⟩ := bind_ok h
            obtain ⟨h5, h6⟩ := members_ok h4
            cases h
            refine ⟨?_, StrLt.mono (by omega) h3, StrLtFields.mono (by omega) h6⟩
            simp only; omega
          · split at h
            · cases h; exact ⟨by omega, StrLt.mono (by omega) h3, trivial⟩
            · exact absurd h bad_ne
      · exact absurd h bad_ne
    · exact absurd h bad_ne
end

/-- Strings in what `json.loads` returns are shorter than the text. -/
theorem loads_ok {t : List Char} {v : PyVal} (h : loads F t = .ok v) : StrLt t.length v := by
  simp only [loads] at h
  obtain ⟨⟨w, r⟩, h1, h⟩ := bind_ok h
  simp only at h
  split at h
  · cases h; exact StrLt.mono (length_skip t) (value_ok h1).2
  · exact absurd h bad_ne

/-! ### The bounds -/

mutual
theorem value_fuel : ∀ {n m : Nat} {t : List Char}, 2 * t.length + 1 ≤ n → 2 * t.length + 1 ≤ m → value F n t = value F m t
  | 0, _, _, h, _ => by omega
  | _, 0, _, _, h => by omega
  | _ + 1, _ + 1, [], _, _ => by simp only [value]
  | n + 1, m + 1, c :: t, hn, hm => by
    simp only [List.length_cons] at hn hm
    have hs := length_skip t
    simp only [value]
    split
    · rfl
    split
    · split
      · rfl
      · rename_i d u hd
        rw [hd] at hs
        rw [members_fuel (n := n) (m := m) (t := d :: u) (by omega) (by omega)]
    split
    · split
      · rfl
      · rename_i d u hd
        rw [hd] at hs
        rw [items_fuel (n := n) (m := m) (t := d :: u) (by omega) (by omega)]
    · rfl
theorem items_fuel : ∀ {n m : Nat} {t : List Char}, 2 * t.length + 2 ≤ n → 2 * t.length + 2 ≤ m → items F n t = items F m t
  | 0, _, _, h, _ => by omega
  | _, 0, _, _, h => by omega
  | n + 1, m + 1, t, hn, hm => by
    simp only [items]
    rw [value_fuel (n := n) (m := m) (t := t) (by omega) (by omega)]
    cases hv : value F m t with
    | error e => rfl
    | ok x =>
      obtain ⟨v, r⟩ := x
      have h1 := (value_ok hv).1
      have hs := length_skip r
      simp only [bind, Except.bind]
      split
      · rfl
      · rename_i d u hd
        rw [hd] at hs
        have hs2 := length_skip u
        simp only [List.length_cons] at hs
        rw [items_fuel (n := n) (m := m) (t := skip u) (by omega) (by omega)]
theorem members_fuel : ∀ {n m : Nat} {t : List Char}, 2 * t.length + 2 ≤ n → 2 * t.length + 2 ≤ m → members F n t = members F m t
  | 0, _, _, h, _ => by omega
  | _, 0, _, _, h => by omega
  | _ + 1, _ + 1, [], _, _ => by simp only [members]
  | n + 1, m + 1, q :: t, hn, hm => by
    simp only [List.length_cons] at hn hm
    simp only [members]
    split
    · cases h0 : scanString t.length t with
      | error e => rfl
      | ok x =>
        obtain ⟨k, r0⟩ := x
        have hl0 := scan_length h0
        have hs0 := length_skip r0
        simp only [bind, Except.bind]
        split
        · rfl
        · rename_i d0 u0 hd0
          rw [hd0] at hs0
          have hs1 := length_skip u0
          simp only [List.length_cons] at hs0
          split
          · rw [value_fuel (n := n) (m := m) (t := skip u0) (by omega) (by omega)]
            cases hv : value F m (skip u0) with
            | error e => rfl
            | ok x =>
              obtain ⟨v, r⟩ := x
              have h1 := (value_ok hv).1
              have hs := length_skip r
              simp only
              split
              · rfl
              · rename_i d u hd
                rw [hd] at hs
                have hs2 := length_skip u
                simp only [List.length_cons] at hs
                rw [members_fuel (n := n) (m := m) (t := skip u) (by omega) (by omega)]
          · rfl
    · rfl
end

variable {reg : Registry} {user : Nat → List Char → Except Err Pattern}

theorem eachWith_congr {g g' : List Char → Except Err Pattern} {n : Nat} (h : ∀ s : List Char, s.length < n → g s = g' s) {fs : List (String × PyVal)}
    (hf : StrLtFields n fs) : eachWith g fs = eachWith g' fs := by
  simp only [eachWith]
  refine List.map_congr_left fun f hm => ?_
  have := strLtFields_iff.mp hf f hm
  obtain ⟨k, v⟩ := f
  cases v with
  | str s => simp only [StrLt] at this; rw [← String.length_toList] at this; simp only [h s.toList this]
  | _ => rfl

theorem innerWith_congr {g g' : List Char → Except Err Pattern} {n : Nat} (h : ∀ s : List Char, s.length < n → g s = g' s) {fs : List (String × PyVal)}
    (hf : StrLtFields n fs) : innerWith g fs = innerWith g' fs := by
  simp only [innerWith]
  refine List.filterMap_congr fun f hm => ?_
  have := strLtFields_iff.mp hf f hm
  obtain ⟨k, v⟩ := f
  cases v with
  | dict gs => simp only [eachWith_congr h this]
  | _ => rfl

/-- The bound on the nesting does not matter. -/
theorem getN_fuel : ∀ {n m : Nat} {t : List Char}, t.length < n → t.length < m → getN F reg user n t = getN F reg user m t
  | 0, _, _, h, _ => by omega
  | _, 0, _, _, h => by omega
  | n + 1, m + 1, t, hn, hm => by
    simp only [getN]
    cases hl : loads F t with
    | error e => rfl
    | ok v =>
      have h1 := loads_ok hl
      have h2 : ∀ s : List Char, s.length < t.length → getN F reg user n s = getN F reg user m s :=
        fun s hs => getN_fuel (by omega) (by omega)
      cases v with
      | dict fs => simp only [bind, Except.bind, eachWith_congr h2 h1, innerWith_congr h2 h1]
      | _ => rfl

/-- `get_pattern_from_json` calls itself. -/
theorem get_unfold (t : List Char) : getPatternFromJson F reg user t = loads F t >>= fun v =>
    match v with
    | .dict fs => Json.dispatch reg (fun id _ => user id t) fs (eachWith (getPatternFromJson F reg user) fs)
        (innerWith (getPatternFromJson F reg user) fs)
    | _ => .error .typeError := by
  conv_lhs => simp only [getPatternFromJson, getN]
  cases hl : loads F t with
  | error e => rfl
  | ok v =>
    have h1 := loads_ok hl
    have h2 : ∀ s : List Char, s.length < t.length → getN F reg user t.length s = getPatternFromJson F reg user s :=
      fun s hs => getN_fuel (by omega) (by omega)
    cases v with
    | dict fs => simp only [bind, Except.bind, eachWith_congr h2 h1, innerWith_congr h2 h1]
    | _ => rfl

end JsonText
end Paragami
