import Verif.Proofs.JsonTextBound
import Verif.Proofs.JsonEdit

/-! # Reading a text by its characters refines reading it by the value it encodes -/

namespace Paragami
namespace JsonText
open Spec
open PyVal (normList normFields)

variable {F : FloatText} {D : ℝ → Prop}

/-! ### `norm` -/

mutual
theorem dumps_norm : ∀ v : PyVal, dumps F v.norm = dumps F v
  | .none => by simp only [PyVal.norm]
  | .bool _ => by simp only [PyVal.norm]
  | .num _ => by simp only [PyVal.norm]
  | .str _ => by simp only [PyVal.norm]
  | .text _ => by simp only [PyVal.norm]
  | .list l => by simp only [PyVal.norm, dumps]; rw [(dumpsList_norm l).1]
  | .tuple l => by simp only [PyVal.norm, dumps]; rw [(dumpsList_norm l).1]
  | .dict fs => by simp only [PyVal.norm, dumps]; rw [(dumpsFields_norm fs).1]
theorem dumpsList_norm : ∀ l : List PyVal, dumpsItems F (normList l) = dumpsItems F l ∧ dumpsItemsTail F (normList l) = dumpsItemsTail F l
  | [] => by simp only [normList]; exact ⟨trivial, trivial⟩
  | v :: l => by
    simp only [normList, dumpsItems, dumpsItemsTail]
    rw [dumps_norm v, (dumpsList_norm l).2]
    exact ⟨rfl, rfl⟩
theorem dumpsFields_norm : ∀ l : List (String × PyVal), dumpsFields F (normFields l) = dumpsFields F l ∧
    dumpsFieldsTail F (normFields l) = dumpsFieldsTail F l
  | [] => by simp only [normFields]; exact ⟨trivial, trivial⟩
  | (k, v) :: l => by
    simp only [normFields, dumpsFields, dumpsFieldsTail]
    rw [dumps_norm v, (dumpsFields_norm l).2]
    exact ⟨rfl, rfl⟩
end

mutual
theorem clean_printable : ∀ {v : PyVal}, Clean D v → Printable D v
  | .none, _ => trivial
  | .bool _, _ => trivial
  | .num (.int _), _ => by simp only [Printable]
  | .num (.flt .nan), _ => by simp only [Printable]
  | .num (.flt .pinf), _ => by simp only [Printable]
  | .num (.flt .ninf), _ => by simp only [Printable]
  | .num (.flt (.fin _)), h => by simpa only [Printable, Clean] using h
  | .str _, _ => by simp only [Printable]
  | .text _, _ => by simp only [Printable]
  | .tuple _, h => by simp only [Clean] at h
  | .list l, h => by simp only [Clean] at h; simp only [Printable]; exact cleanList_printable h
  | .dict fs, h => by simp only [Clean] at h; simp only [Printable]; exact ⟨h.1, cleanFields_printable h.2⟩
theorem cleanList_printable : ∀ {l : List PyVal}, CleanList D l → PrintableList D l
  | [], _ => by simp only [PrintableList]
  | _ :: _, h => by simp only [CleanList] at h; simp only [PrintableList]; exact ⟨clean_printable h.1, cleanList_printable h.2⟩
theorem cleanFields_printable : ∀ {l : List (String × PyVal)}, CleanFields D l → PrintableFields D l
  | [], _ => by simp only [PrintableFields]
  | (_, _) :: _, h => by simp only [CleanFields] at h; simp only [PrintableFields]; exact ⟨clean_printable h.1, cleanFields_printable h.2⟩
end

theorem cleanFields_iff {fs : List (String × PyVal)} : CleanFields D fs ↔ ∀ f ∈ fs, Clean D f.2 := by
  induction fs with
  | nil => simp [CleanFields]
  | cons f fs ih => obtain ⟨k, v⟩ := f; simp [CleanFields, ih]

/-! ### Fields -/

theorem charsFields_map (fs : List (String × PyVal)) : charsFields F fs = fs.map fun f => (f.1, chars F f.2) := by
  induction fs with
  | nil => simp [charsFields]
  | cons f fs ih => obtain ⟨k, v⟩ := f; simp [charsFields, ih]

theorem charsList_map (l : List PyVal) : charsList F l = l.map (chars F) := by
  induction l with
  | nil => simp [charsList]
  | cons v l ih => simp [charsList, ih]

theorem lookup_map {β γ : Type} (g : β → γ) (l : List (String × β)) (k : String) :
    (l.map fun f => (f.1, g f.2)).lookup k = (l.lookup k).map g := by
  induction l with
  | nil => rfl
  | cons f l ih =>
    obtain ⟨k', v⟩ := f
    simp only [List.map_cons, List.lookup_cons, ih]
    split <;> rfl

theorem mem_of_lookup {β : Type} {l : List (String × β)} {k : String} {v : β} (h : l.lookup k = some v) : (k, v) ∈ l := by
  induction l with
  | nil => cases h
  | cons f l ih =>
    obtain ⟨k', v'⟩ := f
    rw [List.lookup_cons] at h
    split at h
    · rename_i he
      have he : k = k' := by simpa using he
      cases h; subst he; simp
    · exact List.mem_cons_of_mem _ (ih h)

theorem chars_lookup (fs : List (String × PyVal)) (k : String) : (charsFields F fs).lookup k = (fs.lookup k).map (chars F) := by
  rw [charsFields_map, lookup_map]

theorem chars_filter (fs : List (String × PyVal)) (p : String → Bool) :
    (charsFields F fs).filter (fun f => p f.1) = charsFields F (fs.filter fun f => p f.1) := by
  rw [charsFields_map, charsFields_map, List.filter_map]
  rfl

open Json in
theorem kwNum_chars (fs : List (String × PyVal)) (k : String) (d : PyNum) : kwNum (charsFields F fs) k d = kwNum fs k d := by
  simp only [kwNum, chars_lookup]
  cases fs.lookup k with
  | none => rfl
  | some v => cases v <;> simp only [Option.map, chars]

open Json in
theorem kwBool_chars (fs : List (String × PyVal)) (k : String) (d : Bool) : kwBool (charsFields F fs) k d = kwBool fs k d := by
  simp only [kwBool, chars_lookup]
  cases fs.lookup k with
  | none => rfl
  | some v => cases v <;> simp only [Option.map, chars]

open Json in
theorem kwOptBool_chars (fs : List (String × PyVal)) (k : String) : kwOptBool (charsFields F fs) k = kwOptBool fs k := by
  simp only [kwOptBool, chars_lookup]
  cases fs.lookup k with
  | none => rfl
  | some v => cases v <;> simp only [Option.map, chars]

open Json in
theorem asNat_chars (v : PyVal) : asNat (chars F v) = asNat v := by
  cases v <;> simp only [chars, asNat]

open Json in
theorem mapE_asNat_chars (l : List PyVal) : mapE asNat (charsList F l) = mapE asNat l := by
  induction l with
  | nil => simp [charsList]
  | cons v l ih => simp only [charsList, mapE, asNat_chars, ih]

open Json in
theorem asNats_chars (v : PyVal) : asNats (chars F v) = asNats v := by
  cases v <;> simp only [chars, asNats, mapE_asNat_chars]

open Json in
theorem kwReq_chars {α : Type} (fs : List (String × PyVal)) (k : String) {g : PyVal → Except Err α} (hg : ∀ v, g (chars F v) = g v) :
    (kwReq (charsFields F fs) k >>= g) = (kwReq fs k >>= g) := by
  simp only [kwReq, chars_lookup]
  cases fs.lookup k with
  | none => rfl
  | some v => simpa only [Option.map, bind, Except.bind] using hg v

open Json in
theorem field_chars {α : Type} (fs : List (String × PyVal)) (k : String) {g g' : PyVal → Except Err α}
    (hg : ∀ v, fs.lookup k = some v → g (chars F v) = g' v) : (field (charsFields F fs) k >>= g) = (field fs k >>= g') := by
  simp only [field, chars_lookup]
  cases h : fs.lookup k with
  | none => rfl
  | some v => simpa only [Option.map, bind, Except.bind] using hg v h

open Json in
theorem checkKw_chars (fs : List (String × PyVal)) (ps : List String) : checkKw (charsFields F fs) ps = checkKw fs ps := by
  simp only [checkKw, charsFields_map, List.all_map]
  rfl

open Json in
theorem newNumericArray_chars (fs : List (String × PyVal)) : newNumericArray (charsFields F fs) = newNumericArray fs := by
  simp only [newNumericArray, checkKw_chars, kwNum_chars, kwBool_chars, kwOptBool_chars]
  rw [kwReq_chars fs "shape" fun v => by rw [asNats_chars]]

open Json in
theorem newNumericVector_chars (fs : List (String × PyVal)) : newNumericVector (charsFields F fs) = newNumericVector fs := by
  simp only [newNumericVector, checkKw_chars, kwNum_chars, kwBool_chars, kwOptBool_chars]
  rw [kwReq_chars fs "length" fun v => by rw [asNat_chars]]

open Json in
theorem newNumericScalar_chars (fs : List (String × PyVal)) : newNumericScalar (charsFields F fs) = newNumericScalar fs := by
  simp only [newNumericScalar, checkKw_chars, kwNum_chars, kwBool_chars, kwOptBool_chars]

open Json in
theorem newPSD_chars (fs : List (String × PyVal)) : newPSD (charsFields F fs) = newPSD fs := by
  simp only [newPSD, checkKw_chars, kwNum_chars, kwBool_chars, kwOptBool_chars]
  rw [kwReq_chars fs "size" fun v => by rw [asNat_chars]]

open Json in
theorem newSimplex_chars (fs : List (String × PyVal)) : newSimplex (charsFields F fs) = newSimplex fs := by
  simp only [newSimplex]
  refine field_chars fs _ fun v _ => ?_
  rw [asNat_chars]
  refine congrArg _ (funext fun k => ?_)
  refine field_chars fs _ fun v _ => ?_
  rw [asNats_chars]
  refine congrArg _ (funext fun k => ?_)
  refine field_chars fs _ fun v _ => ?_
  cases v <;> simp only [chars]

open Json in
theorem checkType_chars {fs : List (String × PyVal)} (h : NameClean (.dict fs)) (n : String) :
    checkType (charsFields F fs) n = checkType fs n := by
  simp only [checkType]
  refine field_chars fs _ fun v hv => ?_
  have := h v hv
  cases v with
  | text j => exact absurd rfl (this.1 j)
  | _ => simp only [chars]

/-! ### Refinement -/

theorem _root_.Paragami.Spec.Refines.rfl' {α : Type} (a : Except Err α) : Refines a a := .inr rfl

theorem _root_.Paragami.Spec.Refines.bind {α β : Type} {a b : Except Err α} (h : Refines a b) {f g : α → Except Err β} (hf : ∀ x, Refines (f x) (g x)) :
    Refines (a >>= f) (b >>= g) := by
  rcases h with rfl | rfl
  · exact .inl rfl
  · cases a with
    | error e => exact .inr rfl
    | ok x => exact hf x

theorem _root_.Paragami.Spec.Refines.of_eq {α : Type} {a b : Except Err α} (h : a = b) : Refines a b := .inr h

/-- The results for the entries correspond. -/
def EachLe (each each' : List (String × Except Err Pattern)) (k : String) : Prop :=
  (each.lookup k = none ∧ each'.lookup k = none) ∨ ∃ a b, each.lookup k = some a ∧ each'.lookup k = some b ∧ Refines a b

open Json in
theorem fillDict_le {C C' : List (String × Except Err Pattern)} (h : ∀ k, EachLe C C' k) : ∀ (ks : List PyVal) (d : Pattern),
    Refines (fillDict C d ks) (fillDict C' d (charsList F ks))
  | [], d => by simp only [charsList, fillDict]; exact .inr rfl
  | v :: ks, d => by
    cases v with
    | str k =>
      simp only [charsList, chars, fillDict]
      rcases h k with ⟨h1, h2⟩ | ⟨a, b, h1, h2, h3⟩
      · rw [h1, h2]; exact .inr rfl
      · rw [h1, h2]
        exact h3.bind fun p => (Refines.rfl' _).bind fun d => fillDict_le h ks d
    | none => simp only [charsList, chars, fillDict]; exact .inr rfl
    | bool b => simp only [charsList, chars, fillDict]; exact .inr rfl
    | num x => simp only [charsList, chars, fillDict]; exact .inr rfl
    | list l => simp only [charsList, chars, fillDict]; exact .inr rfl
    | dict l => simp only [charsList, chars, fillDict]; exact .inr rfl
    | _ => simp only [fillDict]; exact .inl rfl

open Json in
theorem builtin_le {b : Builtin} {fs : List (String × PyVal)} {each each' : List (String × Except Err Pattern)}
    {inner inner' : List (String × List (String × Except Err Pattern))} (hn : NameClean (.dict fs)) (he : ∀ k, EachLe each each' k)
    (hi : (inner.lookup "contents" = none ∧ inner'.lookup "contents" = none) ∨
      ∃ C C', inner.lookup "contents" = some C ∧ inner'.lookup "contents" = some C' ∧ ∀ k, EachLe C C' k) :
    Refines (builtinFromJson b fs each inner) (builtinFromJson b (charsFields F fs) each' inner') := by
  simp only [builtinFromJson]
  rw [checkType_chars hn]
  refine (Refines.rfl' _).bind fun _ => ?_
  simp only [chars_filter fs fun k => k != "pattern"]
  cases b with
  | numericArray => simp only; rw [newNumericArray_chars]; exact .inr rfl
  | numericVector => simp only; rw [newNumericVector_chars]; exact .inr rfl
  | numericScalar => simp only; rw [newNumericScalar_chars]; exact .inr rfl
  | psd => simp only; rw [newPSD_chars]; exact .inr rfl
  | simplex => simp only; rw [newSimplex_chars]; exact .inr rfl
  | array =>
    simp only
    rcases he "base_pattern" with ⟨h1, h2⟩ | ⟨a, b, h1, h2, h3⟩
    · rw [h1, h2]; exact .inr rfl
    · rw [h1, h2]
      refine h3.bind fun p => .of_eq ?_
      rw [field_chars fs _ fun v _ => by rw [asNats_chars]]
  | dict =>
    simp only
    have hk : (charsFields F fs).map (·.1) = fs.map (·.1) := charsFields_keys fs
    simp only [hk]
    simp only [field, chars_lookup]
    cases fs.lookup "keys" with
    | none => exact .inr rfl
    | some v =>
      simp only [Option.map, bind, Except.bind]
      cases v with
      | list ks =>
        simp only [chars]
        rcases hi with ⟨h1, h2⟩ | ⟨C, C', h1, h2, h3⟩
        · rw [h1, h2]
          simp only [charsList_map, List.isEmpty_map]
          exact .inr rfl
        · rw [h1, h2]
          exact fillDict_le h3 ks _
      | _ => exact .inl rfl

variable {reg : Registry} {user : Nat → List Char → Except Err Pattern}

/-- What `get_pattern_from_json` gives for a value of a dictionary. -/
noncomputable def ofField (F : FloatText) (reg : Registry) (user : Nat → List Char → Except Err Pattern) (v : PyVal) : Except Err Pattern :=
  match v with
  | .str s => getPatternFromJson F reg user s.toList
  | _ => .error .typeError

theorem eachWith_lookup (fs : List (String × PyVal)) (k : String) :
    (eachWith (getPatternFromJson F reg user) fs).lookup k = (fs.lookup k).map (ofField F reg user) := by
  rw [← lookup_map]
  rfl

/-- The statement of the induction for a value. -/
def Le (F : FloatText) (reg : Registry) (user : Nat → List Char → Except Err Pattern) (v : PyVal) : Prop :=
  Refines (Json.getPatternFromJson reg (onValues F user) v) (ofField F reg user (chars F v))

theorem each_le {fs : List (String × PyVal)} (h : ∀ f ∈ fs, Le F reg user f.2) (k : String) :
    EachLe (Json.getEach reg (onValues F user) fs) (eachWith (getPatternFromJson F reg user) (charsFields F fs)) k := by
  unfold EachLe
  rw [getEach_lookup, eachWith_lookup, chars_lookup]
  cases hl : fs.lookup k with
  | none => exact .inl ⟨rfl, rfl⟩
  | some v => exact .inr ⟨_, _, rfl, rfl, h (k, v) (mem_of_lookup hl)⟩

theorem innerWith_lookup (g : List Char → Except Err Pattern) : ∀ {fs : List (String × PyVal)} (_ : (fs.map (·.1)).Nodup) (k : String),
    (innerWith g fs).lookup k = match fs.lookup k with | some (.dict gs) => some (eachWith g gs) | _ => none
  | [], _, _ => rfl
  | (k', v) :: fs, hn, k => by
    rw [List.map_cons, List.nodup_cons] at hn
    have ih := innerWith_lookup g hn.2 k
    by_cases h : k = k'
    · subst h
      have h0 := (JsonEdit.lookup_none_iff fs k).2 hn.1
      rw [h0] at ih
      simp only [innerWith] at ih
      cases v <;> simp only [innerWith, List.filterMap_cons, List.lookup_cons, beq_self_eq_true, ih]
    · have hk : (k == k') = false := by simpa using h
      simp only [innerWith] at ih
      cases v <;> simp only [innerWith, List.filterMap_cons, List.lookup_cons, hk, ih]

theorem inner_le {fs : List (String × PyVal)} (hn : (fs.map (·.1)).Nodup)
    (h : ∀ f ∈ fs, ∀ gs, f.2 = .dict gs → ∀ g ∈ gs, Le F reg user g.2) (k : String) :
    ((Json.getInner reg (onValues F user) fs).lookup k = none ∧ (innerWith (getPatternFromJson F reg user) (charsFields F fs)).lookup k = none) ∨
      ∃ C C', (Json.getInner reg (onValues F user) fs).lookup k = some C ∧
        (innerWith (getPatternFromJson F reg user) (charsFields F fs)).lookup k = some C' ∧ ∀ k, EachLe C C' k := by
  rw [JsonEdit.getInner_lookup hn, innerWith_lookup _ (by rw [charsFields_keys]; exact hn), chars_lookup]
  cases hl : fs.lookup k with
  | none => exact .inl ⟨rfl, rfl⟩
  | some v =>
    cases v with
    | dict gs =>
      exact .inr ⟨_, _, rfl, by simp only [Option.map, chars], fun k' => each_le (h (k, .dict gs) (mem_of_lookup hl) gs rfl) k'⟩
    | _ => exact .inl ⟨rfl, by simp only [Option.map, chars]⟩

/-- The induction hypothesis for a value: what is needed if it occurs in a dictionary, is one, or is one in a dictionary. -/
def Ih (F : FloatText) (reg : Registry) (user : Nat → List Char → Except Err Pattern) (v : PyVal) : Prop :=
  Le F reg user v ∧ ∀ fs, v = .dict fs → ∀ f ∈ fs, Le F reg user f.2 ∧ ∀ gs, f.2 = .dict gs → ∀ g ∈ gs, Le F reg user g.2

theorem dispatch_le (hF : Faithful F D) {fs : List (String × PyVal)} (hc : Clean D (.dict fs)) (hn : NameClean (.dict fs))
    (ih : ∀ f ∈ fs, Le F reg user f.2 ∧ ∀ gs, f.2 = .dict gs → ∀ g ∈ gs, Le F reg user g.2) :
    Refines (Json.getPatternFromJson reg (onValues F user) (.text (.dict fs))) (getPatternFromJson F reg user (dumps F (.dict fs))) := by
  have hl := loads_dumps hF (clean_printable hc)
  simp only [Clean] at hc
  rw [get_unfold, hl]
  simp only [chars, bind, Except.bind, Json.getPatternFromJson, Json.dispatch, chars_lookup]
  have hb : ∀ b, _ := fun b => builtin_le (b := b) (F := F) hn (each_le fun f hf => (ih f hf).1)
    (inner_le hc.1 (fun f hf => (ih f hf).2) "contents")
  cases hp : fs.lookup "pattern" with
  | none => exact .inr rfl
  | some v =>
    have hv := hn v hp
    cases v with
    | text j => exact absurd rfl (hv.1 j)
    | tuple l => exact absurd rfl (hv.2 l)
    | str n =>
      simp only [Option.map, chars]
      cases reg.lookup n with
      | none => exact .inr rfl
      | some c =>
        cases c with
        | builtin b => exact hb b
        | user m id => exact .inr rfl
    | _ => simp only [Option.map, chars]; exact .inr rfl

theorem other_le (hF : Faithful F D) {j : PyVal} (hc : Clean D j) (hj : ∀ fs, j ≠ .dict fs) :
    Refines (Json.getPatternFromJson reg (onValues F user) (.text j)) (getPatternFromJson F reg user (dumps F j)) := by
  have hl := loads_dumps hF (clean_printable hc)
  rw [get_unfold, hl]
  cases j with
  | dict fs => exact absurd rfl (hj fs)
  | _ => simp only [chars, bind, Except.bind, Json.getPatternFromJson]; exact .inr rfl

theorem text_le (hF : Faithful F D) {j : PyVal} (hc : Clean D j) (hn : NameClean j) (ih : Ih F reg user j) :
    Refines (Json.getPatternFromJson reg (onValues F user) (.text j)) (getPatternFromJson F reg user (dumps F j)) := by
  cases j with
  | dict fs => exact dispatch_le hF hc hn (ih.2 fs rfl)
  | _ => exact other_le hF hc (fun _ => by simp)

mutual
theorem refine_value (hF : Faithful F D) : ∀ {v : PyVal}, Clean D v → Ih F reg user v
  | .none, _ => ⟨by simp only [Le, Json.getPatternFromJson]; exact .inl rfl, fun _ h => by simp at h⟩
  | .bool _, _ => ⟨by simp only [Le, Json.getPatternFromJson]; exact .inl rfl, fun _ h => by simp at h⟩
  | .num _, _ => ⟨by simp only [Le, Json.getPatternFromJson]; exact .inl rfl, fun _ h => by simp at h⟩
  | .str _, _ => ⟨by simp only [Le, Json.getPatternFromJson]; exact .inl rfl, fun _ h => by simp at h⟩
  | .list _, _ => ⟨by simp only [Le, Json.getPatternFromJson]; exact .inl rfl, fun _ h => by simp at h⟩
  | .tuple _, _ => ⟨by simp only [Le, Json.getPatternFromJson]; exact .inl rfl, fun _ h => by simp at h⟩
  | .dict fs, h => by
    simp only [Clean] at h
    refine ⟨by simp only [Le, Json.getPatternFromJson]; exact .inl rfl, fun gs he f hf => ?_⟩
    have he' : fs = gs := by simpa using he
    subst he'
    have := refine_fields hF h.2 f hf
    exact ⟨this.1, fun gs he g hg => (this.2 gs he g hg).1⟩
  | .text j, h => by
    simp only [Clean] at h
    refine ⟨?_, fun _ h => by simp at h⟩
    simp only [Le, chars, ofField, String.toList_ofList]
    exact text_le hF h.1 h.2 (refine_value hF h.1)
theorem refine_fields (hF : Faithful F D) : ∀ {fs : List (String × PyVal)}, CleanFields D fs → ∀ f ∈ fs, Ih F reg user f.2
  | [], _, _, hf => by simp at hf
  | (k, v) :: fs, h, f, hf => by
    simp only [CleanFields] at h
    rcases List.mem_cons.mp hf with rfl | hf
    · exact refine_value hF h.1
    · exact refine_fields hF h.2 f hf
end

/-- Whatever is known about reading a text by the value it encodes holds for its characters. -/
theorem get_refines (hF : Faithful F D) {j : PyVal} (h : Clean D (.text j)) :
    Refines (Json.getPatternFromJson reg (onValues F user) (.text j)) (getPatternFromJson F reg user (dumps F j)) := by
  simp only [Clean] at h
  exact text_le hF h.1 h.2 (refine_value hF h.1)

theorem fromJson_refines (hF : Faithful F D) {j : PyVal} (h : Clean D (.text j)) (b : Builtin) :
    Refines (Json.fromJson reg (onValues F user) b (.text j)) (fromJson F reg user b (dumps F j)) := by
  simp only [Clean] at h
  have hl := loads_dumps hF (clean_printable h.1)
  have ih := refine_value (reg := reg) (user := user) hF h.1
  rw [fromJson, hl]
  cases j with
  | dict fs =>
    have hc := h.1
    simp only [Clean] at hc
    simp only [chars, bind, Except.bind, Json.fromJson]
    exact builtin_le h.2 (each_le fun f hf => (ih.2 fs rfl f hf).1) (inner_le hc.1 (fun f hf => (ih.2 fs rfl f hf).2) "contents")
  | _ => simp only [chars, bind, Except.bind, Json.fromJson]; exact .inr rfl

/-! ### Texts of patterns -/

theorem cleanNum {x : PyNum} (h : NumIn D x) : Clean D (.num x) := by
  cases x with
  | int i => simp only [Clean]
  | flt x => cases x <;> simp_all only [Clean, NumIn]

theorem cleanList_nats (l : List Nat) : CleanList D (l.map .nat) := by
  induction l with
  | nil => simp [CleanList]
  | cons a l ih => simp only [List.map_cons, CleanList]; exact ⟨by simp only [PyVal.nat, Clean], ih⟩

theorem cleanList_strs (l : List String) : CleanList D (l.map .str) := by
  induction l with
  | nil => simp [CleanList]
  | cons a l ih => simp only [List.map_cons, CleanList]; exact ⟨by simp only [Clean], ih⟩

theorem clean_ofOptBool (o : Option Bool) : Clean D (.ofOptBool o) := by
  cases o <;> simp only [PyVal.ofOptBool, Clean]

theorem asDict_nameClean (p : Pattern) : NameClean p.asDict.norm := by
  obtain ⟨fs, h1, h2⟩ := asDict_type p
  rw [h1]
  intro v hv
  rw [h2] at hv
  cases hv
  exact ⟨fun _ => by simp, fun _ => by simp⟩

theorem asDict_clean (p : Pattern) (hw : p.WF) (hb : FloatsIn D p) : Clean D p.asDict.norm := by
  revert hw hb
  induction p using Pattern.ind (Q := fun es => Pattern.WFEs es → FloatsInEs D es → CleanFields D (Pattern.contents es) ∧
      (Pattern.contents es).map (·.1) = es.keys) with
  | hnum c s lb ub dv fd =>
    intro _ hb
    simp only [FloatsIn] at hb
    cases c <;> simp [Pattern.asDict, PyVal.norm, normFields, Clean, CleanFields, normList_nats, cleanList_nats, clean_ofOptBool, cleanNum hb.1, cleanNum hb.2, norm_ofOptBool, PyVal.nat]
  | hsim k s dv fd =>
    intro _ _
    simp [Pattern.asDict, PyVal.norm, normFields, Clean, CleanFields, normList_nats, cleanList_nats, PyVal.nat]
  | hpsd n lb dv fd =>
    intro _ hb
    simp only [FloatsIn] at hb
    simp [Pattern.asDict, PyVal.norm, normFields, Clean, CleanFields, PyVal.nat, cleanNum hb]
  | harr s b fd ih =>
    intro hw hb
    have h0 := ih (by simp only [Pattern.WF] at hw; tauto) (by simpa only [FloatsIn] using hb)
    have h1 := asDict_nameClean b
    simp only [Pattern.asDict, PyVal.norm, normFields, normList_nats, Clean, CleanFields]
    exact ⟨by simp, trivial, cleanList_nats _, cleanList_nats _, ⟨h0, h1⟩, trivial⟩
  | hdict es l fd ih =>
    intro hw hb
    have h0 := ih (by simp only [Pattern.WF] at hw; tauto) (by simpa only [FloatsIn] using hb)
    have hn : es.keys.Nodup := by simp only [Pattern.WF] at hw; tauto
    simp only [Pattern.asDict, PyVal.norm, normFields, normList_strs, normFields_contents, Clean, CleanFields]
    exact ⟨by simp, trivial, cleanList_strs _, ⟨h0.2 ▸ hn, h0.1⟩, trivial⟩
  | hnil => simp [Pattern.contents, CleanFields, Entries.keys, Entries.toList]
  | hcons k p r ihp ihr =>
    rename_i hw hb
    simp only [Pattern.WFEs] at hw
    simp only [FloatsInEs] at hb
    have h1 := ihp (by tauto) hb.1
    have h2 := ihr (by tauto) hb.2
    simp only [Pattern.contents, CleanFields, Clean, List.map_cons]
    exact ⟨⟨⟨h1, asDict_nameClean p⟩, h2.1⟩, by rw [h2.2]; rfl⟩

theorem asDict_text_clean {p : Pattern} (hw : p.WF) (hb : FloatsIn D p) : Clean D (.text p.asDict.norm) := by
  simp only [Clean]
  exact ⟨asDict_clean p hw hb, asDict_nameClean p⟩

theorem toJson_eq (p : Pattern) : toJson F p = dumps F p.asDict.norm := (dumps_norm _).symm

theorem get_toJson (hF : Faithful F D) (hr : HasBuiltins reg) {p : Pattern} (hw : p.WF) (hb : FloatsIn D p) :
    getPatternFromJson F reg user (toJson F p) = .ok (forget p) := by
  have h1 := get_refines (reg := reg) (user := user) hF (asDict_text_clean hw hb)
  rw [decode hr p hw] at h1
  rw [toJson_eq]
  rcases h1 with h | h
  · cases h
  · exact h.symm

end JsonText
end Paragami
