import Verif.Model.Str
import Verif.Spec.Str
import Verif.Props.Names

/-! # Lemmas on the text of patterns -/

set_option linter.unusedSimpArgs false

namespace Paragami
open Pattern

namespace Str

/-- Two texts that start with characters of one kind followed by a character of another kind. -/
theorem span_split {P : Char → Prop} : ∀ {a b x y : List Char}, (∀ c ∈ a, P c) → (∀ c ∈ b, P c) →
    (∀ c ∈ x.head?, ¬ P c) → (∀ c ∈ y.head?, ¬ P c) → a ++ x = b ++ y → a = b ∧ x = y
  | [], [], _, _, _, _, _, _, h => ⟨rfl, h⟩
  | [], c :: b, x, y, _, hb, hx, _, h => by
    subst h
    exact absurd (hb c (by simp)) (hx c (by simp))
  | c :: a, [], x, y, ha, _, _, hy, h => by
    simp only [List.nil_append] at h
    subst h
    exact absurd (ha c (by simp)) (hy c (by simp))
  | c :: a, d :: b, x, y, ha, hb, hx, hy, h => by
    simp only [List.cons_append, List.cons.injEq] at h
    obtain ⟨h1, h2⟩ := span_split (fun c hc => ha c (by simp [hc])) (fun c hc => hb c (by simp [hc])) hx hy h.2
    exact ⟨by rw [h.1, h1], h2⟩

theorem split_at {e : Char} {a b x y : List Char} (ha : e ∉ a) (hb : e ∉ b) (h : a ++ e :: x = b ++ e :: y) : a = b ∧ x = y := by
  have := span_split (P := (· ≠ e)) (fun c hc he => ha (he ▸ hc)) (fun c hc he => hb (he ▸ hc)) (by simp) (by simp) h
  simpa using this

theorem nat_split {m n : Nat} {x y : List Char} (hx : ∀ c ∈ x.head?, ¬ c.isDigit) (hy : ∀ c ∈ y.head?, ¬ c.isDigit)
    (h : (toString m).toList ++ x = (toString n).toList ++ y) : m = n ∧ x = y := by
  obtain ⟨h1, h2⟩ := span_split (P := fun c => c.isDigit) (fun c hc => digit_of_mem hc) (fun c hc => digit_of_mem hc) hx hy h
  exact ⟨toString_inj (String.toList_inj.mp h1), h2⟩

/-- What a tuple prints between its parentheses. -/
def body (l : List Nat) : List Char :=
  match l with
  | [] => []
  | [n] => (toString n).toList ++ [',']
  | l => [',', ' '].intercalate (l.map fun n => (toString n).toList)

theorem tuple_toList (l : List Nat) : (tupleStr l).toList = '(' :: (body l ++ [')']) := by
  match l with
  | [] => rfl
  | [n] => simp [tupleStr, body]
  | a :: b :: l => simp [tupleStr, body, String.toList_intercalate, List.map_map, Function.comp_def]

theorem digit_ne {c d : Char} (h : c.isDigit = true) (hd : d.isDigit = false) : c ≠ d := by
  rintro rfl; simp [h] at hd

theorem mem_body {l : List Nat} {c : Char} (h : c ∈ body l) : c ≠ ')' ∧ c ≠ '\n' := by
  have hdig : ∀ {n : Nat} {c : Char}, c ∈ (toString n).toList → c ≠ ')' ∧ c ≠ '\n' := fun h =>
    ⟨digit_ne (digit_of_mem h) (by decide), digit_ne (digit_of_mem h) (by decide)⟩
  match l with
  | [] => simp [body] at h
  | [n] =>
    simp only [body, List.mem_append, List.mem_singleton] at h
    rcases h with h | rfl
    · exact hdig h
    · decide
  | a :: b :: l =>
    simp only [body] at h
    rcases mem_intercalate h with h | ⟨y, hy, h⟩
    · simp only [List.mem_cons, List.not_mem_nil, or_false] at h
      rcases h with rfl | rfl <;> decide
    · obtain ⟨n, _, rfl⟩ := List.mem_map.mp hy
      exact hdig h

theorem inter_inj : ∀ {l l' : List Nat}, l ≠ [] → l' ≠ [] →
    [',', ' '].intercalate (l.map fun n => (toString n).toList) = [',', ' '].intercalate (l'.map fun n => (toString n).toList) → l = l'
  | [a], [b], _, _, h => by
    simp only [List.map_cons, List.map_nil, List.intercalate_singleton] at h
    rw [toString_inj (String.toList_inj.mp h)]
  | [a], b :: c :: l', _, _, h => by
    simp only [List.map_cons, List.map_nil, List.intercalate_singleton, List.intercalate_cons_cons, List.append_assoc] at h
    have h' : (toString a).toList ++ [] = (toString b).toList ++ (',' :: ' ' ::
        [',', ' '].intercalate ((toString c).toList :: List.map (fun n => (toString n).toList) l')) := by simpa using h
    have := (nat_split (by simp) (by simp) h').2
    simp at this
  | b :: c :: l', [a], _, _, h => by
    simp only [List.map_cons, List.map_nil, List.intercalate_singleton, List.intercalate_cons_cons, List.append_assoc] at h
    have h' : (toString b).toList ++ (',' :: ' ' ::
        [',', ' '].intercalate ((toString c).toList :: List.map (fun n => (toString n).toList) l')) = (toString a).toList ++ [] := by
      simpa using h
    have := (nat_split (by simp) (by simp) h').2
    simp at this
  | a :: b :: l, a' :: b' :: l', _, _, h => by
    simp only [List.map_cons, List.intercalate_cons_cons, List.append_assoc] at h
    obtain ⟨h1, h2⟩ := nat_split (by simp) (by simp) h
    simp only [List.cons_append, List.nil_append, List.cons.injEq, true_and] at h2
    have := inter_inj (l := b :: l) (l' := b' :: l') (by simp) (by simp) (by simpa using h2)
    rw [h1, this]

theorem body_inj {l l' : List Nat} (h : body l = body l') : l = l' := by
  have hne : ∀ n : Nat, (toString n).toList ≠ [] := fun n => by
    rw [toList_toString]; exact Nat.toDigits_ne_nil
  have hi : ∀ (a b : Nat) (l : List Nat), body (a :: b :: l) = (toString a).toList ++ ',' :: ' ' ::
      [',', ' '].intercalate ((b :: l).map fun n => (toString n).toList) := fun a b l => by
    simp [body, List.intercalate_cons_cons]
  match l, l' with
  | [], [] => rfl
  | [], [n] => simp [body] at h
  | [n], [] => simp [body] at h
  | [], a :: b :: l => rw [hi] at h; simp [body] at h
  | a :: b :: l, [] => rw [hi] at h; simp [body] at h
  | [m], [n] => rw [(nat_split (by simp) (by simp) h).1]
  | [m], a :: b :: l =>
    rw [hi] at h
    have := (nat_split (by simp) (by simp) h).2
    simp at this
  | a :: b :: l, [m] =>
    rw [hi] at h
    have := (nat_split (by simp) (by simp) h).2
    simp at this
  | a :: b :: l, a' :: b' :: l' => exact inter_inj (by simp) (by simp) h

theorem tuple_split {s s' : List Nat} {x y : List Char} (h : (tupleStr s).toList ++ x = (tupleStr s').toList ++ y) : s = s' ∧ x = y := by
  simp only [tuple_toList, List.cons_append, List.append_assoc, List.nil_append, List.cons.injEq, true_and] at h
  obtain ⟨h1, h2⟩ := split_at (fun hc => (mem_body hc).1 rfl) (fun hc => (mem_body hc).1 rfl) h
  exact ⟨body_inj h1, h2⟩

/-! ### Patterns without dictionaries -/

section
variable {fmt : Flt → String} {S : PyNum → Prop}

theorem digit_newline {n : Nat} {c : Char} (h : c ∈ (toString n).toList) : c ≠ '\n' := digit_ne (digit_of_mem h) (by decide)

theorem tuple_newline {s : List Nat} {c : Char} (h : c ∈ (tupleStr s).toList) : c ≠ '\n' := by
  rw [tuple_toList] at h
  simp only [List.mem_cons, List.mem_append, List.not_mem_nil, or_false] at h
  rcases h with rfl | h | rfl
  · decide
  · exact (mem_body h).2
  · decide

/-- The text of a pattern without dictionaries is one line. -/
theorem one_line (hS : Spec.NumText (PyNum.str fmt) S) (p : Pattern) : Spec.NoDict p → Spec.BoundsIn S p →
    ∀ c ∈ (p.str fmt).toList, c ≠ '\n' := by
  induction p using Pattern.ind (Q := fun _ => True) with
  | hnum c s lb ub dv fd =>
    intro _ hb d hd
    simp only [str_num, str_sim, str_psd, str_arr, str_dict, String.toList_append, List.mem_append] at hd
    rcases hd with ((((((hd | hd) | hd) | hd) | hd) | hd) | hd)
    · rintro rfl; simp at hd
    · exact tuple_newline hd
    · rintro rfl; simp at hd
    · exact (hS.clean _ hb.1 d hd).2.2
    · rintro rfl; simp at hd
    · exact (hS.clean _ hb.2 d hd).2.2
    · rintro rfl; simp at hd
  | hsim k s dv fd =>
    intro _ hb d hd
    simp only [str_num, str_sim, str_psd, str_arr, str_dict, String.toList_append, List.mem_append] at hd
    rcases hd with ((((hd | hd) | hd) | hd) | hd)
    · rintro rfl; simp at hd
    · exact tuple_newline hd
    · rintro rfl; simp at hd
    · exact digit_newline hd
    · rintro rfl; simp at hd
  | hpsd n lb dv fd =>
    intro _ hb d hd
    simp only [str_num, str_sim, str_psd, str_arr, str_dict, String.toList_append, List.mem_append] at hd
    rcases hd with ((((((hd | hd) | hd) | hd) | hd) | hd) | hd)
    · rintro rfl; simp at hd
    · exact digit_newline hd
    · rintro rfl; simp at hd
    · exact digit_newline hd
    · rintro rfl; simp at hd
    · exact (hS.clean _ hb d hd).2.2
    · rintro rfl; simp at hd
  | harr s b fd ih =>
    intro hn hb d hd
    simp only [str_num, str_sim, str_psd, str_arr, str_dict, String.toList_append, List.mem_append] at hd
    rcases hd with (((hd | hd) | hd) | hd)
    · rintro rfl; simp at hd
    · exact tuple_newline hd
    · rintro rfl; simp at hd
    · exact ih hn hb d hd
  | hdict es l fd ih => intro hn; exact hn.elim
  | hnil => trivial
  | hcons k p r _ _ => trivial

theorem num_split (hS : Spec.NumText (PyNum.str fmt) S) {a b : PyNum} (ha : S a) (hb : S b) {e : Char} (he : e = ',' ∨ e = ')')
    {x y : List Char} (h : (a.str fmt).toList ++ e :: x = (b.str fmt).toList ++ e :: y) : a = b ∧ x = y := by
  have hc : ∀ {a : PyNum}, S a → e ∉ (a.str fmt).toList := fun ha hc => by
    have := hS.clean _ ha e hc
    rcases he with rfl | rfl
    · exact this.1 rfl
    · exact this.2.1 rfl
  obtain ⟨h1, h2⟩ := split_at (hc ha) (hc hb) h
  exact ⟨hS.inj _ _ ha hb (String.toList_inj.mp h1), h2⟩

theorem str_inj (hS : Spec.NumText (PyNum.str fmt) S) (p : Pattern) : ∀ q, Spec.NoDict p → Spec.NoDict q → Spec.BoundsIn S p →
    Spec.BoundsIn S q → p.str fmt = q.str fmt → Spec.shown p = Spec.shown q := by
  induction p using Pattern.ind (Q := fun _ => True) with
  | hnum c s lb ub dv fd =>
    intro q _ hq hb hb' h
    replace h := congrArg String.toList h
    cases q with
    | numeric c' s' lb' ub' dv' fd' =>
      simp only [str_num, str_sim, str_psd, str_arr, str_dict, String.toList_append, List.append_assoc, List.append_cancel_left_eq] at h
      obtain ⟨rfl, h⟩ := tuple_split h
      simp only [List.append_cancel_left_eq] at h
      obtain ⟨rfl, h⟩ := num_split hS hb.1 hb'.1 (e := ',') (Or.inl rfl) h
      replace h : (ub.str fmt).toList ++ [')'] = (ub'.str fmt).toList ++ [')'] := by simpa using h
      obtain ⟨rfl, -⟩ := num_split hS hb.2 hb'.2 (e := ')') (Or.inr rfl) h
      rfl
    | dict es l fd' => exact hq.elim
    | _ => simp [str_num, str_sim, str_psd, str_arr, str_dict] at h
  | hsim k s dv fd =>
    intro q _ hq hb hb' h
    replace h := congrArg String.toList h
    cases q with
    | simplex k' s' dv' fd' =>
      simp only [str_num, str_sim, str_psd, str_arr, str_dict, String.toList_append, List.append_assoc, List.append_cancel_left_eq] at h
      obtain ⟨rfl, h⟩ := tuple_split h
      simp only [List.append_cancel_left_eq] at h
      obtain ⟨rfl, -⟩ := nat_split (by simp) (by simp) h
      rfl
    | dict es l fd' => exact hq.elim
    | _ => simp [str_num, str_sim, str_psd, str_arr, str_dict] at h
  | hpsd n lb dv fd =>
    intro q _ hq hb hb' h
    replace h := congrArg String.toList h
    cases q with
    | psd n' lb' dv' fd' =>
      simp only [str_num, str_sim, str_psd, str_arr, str_dict, String.toList_append, List.append_assoc, List.append_cancel_left_eq] at h
      obtain ⟨rfl, h⟩ := nat_split (by simp) (by simp) h
      simp only [List.append_cancel_left_eq] at h
      obtain ⟨rfl, -⟩ := num_split hS hb hb' (e := ')') (Or.inr rfl) h
      rfl
    | dict es l fd' => exact hq.elim
    | _ => simp [str_num, str_sim, str_psd, str_arr, str_dict] at h
  | harr s b fd ih =>
    intro q hp hq hb hb' h
    replace h := congrArg String.toList h
    cases q with
    | array s' b' fd' =>
      simp only [str_num, str_sim, str_psd, str_arr, str_dict, String.toList_append, List.append_assoc, List.append_cancel_left_eq] at h
      obtain ⟨rfl, h⟩ := tuple_split h
      simp only [List.append_cancel_left_eq] at h
      simp only [Spec.shown, ih b' hp hq hb hb' (String.toList_inj.mp h)]
    | dict es l fd' => exact hq.elim
    | _ => simp [str_num, str_sim, str_psd, str_arr, str_dict] at h
  | hdict es l fd ih => intro q hp; exact hp.elim
  | hnil => trivial
  | hcons k p r _ _ => trivial

/-! ### Dictionaries -/

/-- The text does not show the numeric subclass, `default_validate`, `free_default` and the lock. -/
theorem str_shown (p : Pattern) : (Spec.shown p).str fmt = p.str fmt := by
  induction p using Pattern.ind (Q := fun es => strEs fmt (Spec.shownEs es) = strEs fmt es) with
  | hnum c s lb ub dv fd => rfl
  | hsim k s dv fd => rfl
  | hpsd n lb dv fd => rfl
  | harr s b fd ih => simp only [Spec.shown, str_num, str_sim, str_psd, str_arr, str_dict, ih]
  | hdict es l fd ih => simp only [Spec.shown, str_num, str_sim, str_psd, str_arr, str_dict, ih]
  | hnil => rfl
  | hcons k p r ihp ihr => simp only [Spec.shownEs, strEs_nil, strEs_cons, ihp, ihr]

theorem strEs_inj (hS : Spec.NumText (PyNum.str fmt) S) (es : Entries) : ∀ es', (∀ m ∈ es.toList, Spec.NoDict m.2 ∧ ∀ c ∈ m.1.toList, c ≠ ']' ∧ c ≠ '\n') →
    (∀ m ∈ es'.toList, Spec.NoDict m.2 ∧ ∀ c ∈ m.1.toList, c ≠ ']' ∧ c ≠ '\n') → Spec.BoundsInEs S es → Spec.BoundsInEs S es' →
    strEs fmt es = strEs fmt es' → Spec.shownEs es = Spec.shownEs es' := by
  induction es using Entries.rec (motive_1 := fun _ => True) with
  | nil =>
    intro es' _ _ _ _ h
    cases es' with
    | nil => rfl
    | cons k p r => simp [strEs_nil, strEs_cons] at h
  | cons k p r _ ih =>
    intro es' hn hn' hb hb' h
    cases es' with
    | nil => simp [strEs_nil, strEs_cons] at h
    | cons k' p' r' =>
      simp only [strEs_nil, strEs_cons, List.cons.injEq] at h
      obtain ⟨h1, h2⟩ := h
      replace h1 := congrArg String.toList h1
      simp only [String.toList_append, List.append_assoc, List.append_cancel_left_eq] at h1
      replace h1 : k.toList ++ ']' :: (' ' :: '=' :: ' ' :: (p.str fmt).toList) = k'.toList ++ ']' :: (' ' :: '=' :: ' ' :: (p'.str fmt).toList) := by
        simpa using h1
      have m1 := hn (k, p) (by simp [Entries.toList])
      have m2 := hn' (k', p') (by simp [Entries.toList])
      obtain ⟨h3, h4⟩ := split_at (e := ']') (fun hc => (m1.2 _ hc).1 rfl) (fun hc => (m2.2 _ hc).1 rfl) h1
      have h5 : (p.str fmt).toList = (p'.str fmt).toList := by simpa using h4
      simp only [Spec.shownEs, (String.toList_inj.mp h3 : k = k'), str_inj hS p p' m1.1 m2.1 hb.1 hb'.1 (String.toList_inj.mp h5),
        ih r' (fun m hm => hn m (by simp [Entries.toList, hm])) (fun m hm => hn' m (by simp [Entries.toList, hm])) hb.2 hb'.2 h2]
  | _ => trivial

theorem mem_strEs {es : Entries} {t : String} (h : t ∈ strEs fmt es) : ∃ m ∈ es.toList, t = "\t[" ++ m.1 ++ "] = " ++ m.2.str fmt := by
  induction es using Entries.rec (motive_1 := fun _ => True) with
  | nil => simp [strEs_nil, strEs_cons] at h
  | cons k p r _ ih =>
    simp only [strEs_nil, strEs_cons, List.mem_cons] at h
    rcases h with rfl | h
    · exact ⟨(k, p), by simp [Entries.toList], rfl⟩
    · obtain ⟨m, h1, h2⟩ := ih h
      exact ⟨m, by simp [Entries.toList, h1], h2⟩
  | _ => trivial

theorem boundsIn_mem {es : Entries} (hb : Spec.BoundsInEs S es) : ∀ m ∈ es.toList, Spec.BoundsIn S m.2 := by
  induction es using Entries.rec (motive_1 := fun _ => True) with
  | nil => simp [Entries.toList]
  | cons k p r _ ih =>
    intro m hm
    simp only [Entries.toList, List.mem_cons] at hm
    rcases hm with rfl | hm
    · exact hb.1
    · exact ih hb.2 m hm
  | _ => trivial

theorem lines (hS : Spec.NumText (PyNum.str fmt) S) {es : Entries}
    (hn : ∀ m ∈ es.toList, Spec.NoDict m.2 ∧ ∀ c ∈ m.1.toList, c ≠ ']' ∧ c ≠ '\n') (hb : Spec.BoundsInEs S es) :
    ∀ t ∈ (strEs fmt es).map String.toList, '\n' ∉ t := by
  intro t ht hc
  obtain ⟨u, hu, rfl⟩ := List.mem_map.mp ht
  obtain ⟨m, hm, rfl⟩ := mem_strEs hu
  simp only [String.toList_append, List.mem_append] at hc
  rcases hc with ((hc | hc) | hc) | hc
  · simp at hc
  · exact ((hn m hm).2 _ hc).2 rfl
  · simp at hc
  · exact one_line hS m.2 (hn m hm).1 (boundsIn_mem hb m hm) _ hc rfl

theorem inter_ne {l : List String} (h : ∃ t r, l = t :: r ∧ t ≠ "") : "\n".intercalate l ≠ "" := by
  obtain ⟨t, r, rfl, ht⟩ := h
  intro h
  have := congrArg String.toList h
  rw [String.toList_intercalate] at this
  apply ht
  rw [← String.toList_inj]
  cases r with
  | nil => simpa using this
  | cons b r => simp [List.intercalate_cons_cons] at this

theorem dict_inj (hS : Spec.NumText (PyNum.str fmt) S) {es es' : Entries} {l l' fd fd'}
    (hn : ∀ m ∈ es.toList, Spec.NoDict m.2 ∧ ∀ c ∈ m.1.toList, c ≠ ']' ∧ c ≠ '\n')
    (hn' : ∀ m ∈ es'.toList, Spec.NoDict m.2 ∧ ∀ c ∈ m.1.toList, c ≠ ']' ∧ c ≠ '\n') (hb : Spec.BoundsInEs S es) (hb' : Spec.BoundsInEs S es')
    (h : (Pattern.dict es l fd).str fmt = (Pattern.dict es' l' fd').str fmt) : Spec.shownEs es = Spec.shownEs es' := by
  apply strEs_inj hS es es' hn hn' hb hb'
  replace h : "\n".intercalate (strEs fmt es) = "\n".intercalate (strEs fmt es') := by
    have := congrArg String.toList h
    simp only [str_num, str_sim, str_psd, str_arr, str_dict, String.toList_append, List.append_cancel_left_eq] at this
    exact String.toList_inj.mp this
  have hcons : ∀ {es : Entries}, strEs fmt es ≠ [] → "\n".intercalate (strEs fmt es) ≠ "" := by
    intro es hne
    cases es with
    | nil => simp [strEs_nil, strEs_cons] at hne
    | cons k p r =>
      refine inter_ne ⟨_, _, rfl, fun he => ?_⟩
      have := congrArg String.toList he
      simp at this
  by_cases h1 : strEs fmt es = []
  · by_cases h2 : strEs fmt es' = []
    · rw [h1, h2]
    · rw [h1] at h
      exact absurd h.symm (hcons h2)
  · by_cases h2 : strEs fmt es' = []
    · rw [h2] at h
      exact absurd h (hcons h1)
    · have e1 := List.splitOn_intercalate (ls := (strEs fmt es).map String.toList) '\n' (lines hS hn hb) (by simpa using h1)
      have e2 := List.splitOn_intercalate (ls := (strEs fmt es').map String.toList) '\n' (lines hS hn' hb') (by simpa using h2)
      replace h := congrArg String.toList h
      rw [String.toList_intercalate, String.toList_intercalate] at h
      have hsep : "\n".toList = ['\n'] := rfl
      rw [hsep] at h
      rw [h, e2] at e1
      refine List.map_injective_iff.mpr ?_ e1.symm
      intro a b hab
      exact String.toList_inj.mp hab

theorem str_inj_flat (hS : Spec.NumText (PyNum.str fmt) S) {p q : Pattern} (hp : Spec.FlatDict p) (hq : Spec.FlatDict q)
    (hb : Spec.BoundsIn S p) (hb' : Spec.BoundsIn S q) (h : p.str fmt = q.str fmt) : Spec.shown p = Spec.shown q := by
  have hO : ∀ {es l fd} {q : Pattern}, (Pattern.dict es l fd).str fmt = q.str fmt → ∃ es' l' fd', q = .dict es' l' fd' := by
    intro es l fd q h
    replace h := congrArg String.toList h
    cases q with
    | dict es' l' fd' => exact ⟨_, _, _, rfl⟩
    | _ => simp [str_num, str_sim, str_psd, str_arr, str_dict] at h
  cases p with
  | dict es l fd =>
    obtain ⟨es', l', fd', rfl⟩ := hO h
    simp only [Spec.shown, dict_inj hS hp hq hb hb' h]
  | _ =>
    cases q with
    | dict es l fd =>
      obtain ⟨es', l', fd', h2⟩ := hO h.symm
      cases h2
    | _ => exact str_inj hS _ _ hp hq hb hb' h

theorem strEs_append (a b : Entries) : strEs fmt (Spec.append a b) = strEs fmt a ++ strEs fmt b := by
  induction a using Entries.rec (motive_1 := fun _ => True) with
  | nil => rfl
  | cons k p r _ ih => simp [Spec.append, strEs_nil, strEs_cons, ih]
  | _ => trivial

theorem intercalate_append {a b : List (List Char)} {sep : List Char} (ha : a ≠ []) (hb : b ≠ []) :
    sep.intercalate (a ++ b) = sep.intercalate a ++ sep ++ sep.intercalate b := by
  induction a with
  | nil => exact absurd rfl ha
  | cons x a ih =>
    cases a with
    | nil =>
      cases b with
      | nil => exact absurd rfl hb
      | cons y b => simp [List.intercalate_cons_cons]
    | cons y a =>
      have := ih (by simp)
      simp only [List.cons_append, List.intercalate_cons_cons, List.append_assoc] at this ⊢
      rw [this]

theorem ambiguous {a b : Entries} (k : String) (l l' l'' fd fd' fd'') (ha : a ≠ .nil) :
    (Pattern.dict (.cons k (.dict (Spec.append a b) l fd) .nil) l' fd').str fmt =
      (Pattern.dict (.cons k (.dict a l'' fd'') b) l' fd').str fmt := by
  cases b with
  | nil =>
    have : Spec.append a .nil = a := by
      clear ha
      induction a using Entries.rec (motive_1 := fun _ => True) with
      | nil => rfl
      | cons k p r _ ih => simp [Spec.append, ih]
      | _ => trivial
    simp [str_num, str_sim, str_psd, str_arr, str_dict, strEs_nil, strEs_cons, this]
  | cons k2 p2 b =>
    have h1 : strEs fmt a ≠ [] := by
      cases a with
      | nil => exact absurd rfl ha
      | cons k p r => simp [strEs_nil, strEs_cons]
    rw [← String.toList_inj]
    simp only [str_dict, strEs_nil, strEs_cons, String.toList_append, String.toList_intercalate, strEs_append, List.map_append, List.map_cons, List.map_nil,
      List.intercalate_singleton, List.intercalate_cons_cons]
    rw [intercalate_append (by simpa using h1) (by simp)]
    simp only [List.append_assoc]

end

end Str
end Paragami
