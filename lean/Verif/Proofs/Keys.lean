import Verif.Spec.Keys
import Verif.Proofs.NonfreeTrip

/-! # Naming the keys of a dictionary -/

namespace Paragami
namespace Keys
open Spec Pattern NDArray

/-- `SameOutcome`, where the messages are also the same if `E` holds. -/
inductive AgreeE (E : Prop) {A B : Type} (R : A → B → Prop) : Except Err A → Except Err B → Prop
  | ok {a b} : R a b → AgreeE E R (.ok a) (.ok b)
  | error {e e'} : SameKind e e' → (E → e = e') → AgreeE E R (.error e) (.error e')

variable {E : Prop} {A B A' B' : Type} {R : A → B → Prop} {R' : A' → B' → Prop}

theorem SameKind.refl (e : Err) : SameKind e e := by cases e <;> simp [SameKind]

theorem AgreeE.same {r : Except Err A} {Q : A → A → Prop} (h : ∀ a, Q a a) : AgreeE E Q r r := by
  cases r with
  | ok a => exact .ok (h a)
  | error e => exact .error (SameKind.refl e) fun _ => rfl

theorem AgreeE.bind {r : Except Err A} {s : Except Err B} {f : A → Except Err A'} {g : B → Except Err B'} (h : AgreeE E R r s)
    (hf : ∀ a b, R a b → AgreeE E R' (f a) (g b)) : AgreeE E R' (r >>= f) (s >>= g) := by
  cases h with
  | ok h => exact hf _ _ h
  | error h1 h2 => exact .error h1 h2

theorem AgreeE.agree {r : Except Err A} {s : Except Err B} (h : AgreeE E R r s) : SameOutcome R r s := by
  cases h with
  | ok h => exact h
  | error h1 h2 => exact h1

theorem AgreeE.mono {r : Except Err A} {s : Except Err B} {Q : A → B → Prop} (h : AgreeE E R r s) (hq : ∀ a b, R a b → Q a b) :
    AgreeE E Q r s := by
  cases h with
  | ok h => exact .ok (hq _ _ h)
  | error h1 h2 => exact .error h1 h2

variable {S : Key → Prop} {ν : Key → String} {α : Type}

theorem atomNumber_iff {a : Atom} {q : ℚ} : atomNumber a = some q ↔ a.value = .num q := by
  rcases a with _ | (_ | _) | _ | _ | _ <;> simp [atomNumber, Atom.value]

theorem number_iff {a : Key} {q : ℚ} : number a = some q ↔ a.value = .num q := by
  rcases a with _ | (_ | _) | _ | _ | _ | _ <;> simp [number, Key.value]

theorem equalAtoms_iff {a b : Atom} : EqualAtoms a b ↔ a.value = b.value := by
  constructor
  · rintro (rfl | ⟨q, ha, hb⟩)
    · rfl
    · rw [atomNumber_iff.mp ha, atomNumber_iff.mp hb]
  · intro h
    cases hv : a.value with
    | num q => exact .inr ⟨q, atomNumber_iff.mpr hv, atomNumber_iff.mpr (h ▸ hv)⟩
    | str s => cases a <;> cases b <;> simp_all [Atom.value, EqualAtoms]
    | none => cases a <;> cases b <;> simp_all [Atom.value, EqualAtoms]

theorem forall_value : ∀ {l l' : List Atom}, List.Forall₂ EqualAtoms l l' ↔ l.map Atom.value = l'.map Atom.value
  | [], [] => by simp
  | [], _ :: _ => by simp
  | _ :: _, [] => by simp
  | a :: l, b :: l' => by
    rw [List.forall₂_cons, equalAtoms_iff, forall_value (l := l) (l' := l')]
    simp

/-- Keys are equal if `==` compares equal values. -/
theorem equal_iff {a b : Key} : Equal a b ↔ a.value = b.value := by
  constructor
  · rintro (rfl | ⟨q, ha, hb⟩ | ⟨l, l', rfl, rfl, h⟩)
    · rfl
    · rw [number_iff.mp ha, number_iff.mp hb]
    · rw [Key.value, Key.value, forall_value.mp h]
  · intro h
    cases hv : a.value with
    | num q => exact .inr (.inl ⟨q, number_iff.mpr hv, number_iff.mpr (h ▸ hv)⟩)
    | str s => cases a <;> cases b <;> simp_all [Key.value, Equal]
    | none => cases a <;> cases b <;> simp_all [Key.value, Equal]
    | tuple m =>
      cases a <;> cases b <;> simp only [Key.value, KeyValue.tuple.injEq, reduceCtorEq] at h hv
      exact .inr (.inr ⟨_, _, rfl, rfl, forall_value.mpr h⟩)

/-- `ν` gives keys that are not equal different names, and equal keys the same name. -/
def InjIn (S : Key → Prop) (ν : Key → String) : Prop := ∀ a b, S a → S b → (ν a = ν b ↔ a.value = b.value)

theorem lookup_rename (hν : InjIn S ν) {k : Key} (hk : S k) : ∀ (vs : List (Key × KVal α)), ValsKeysIn S vs →
    (renameVals ν vs).lookup (ν k) = (KVal.get? vs k).map (renameVal ν)
  | [], _ => by simp [renameVals, KVal.get?]
  | (k', v) :: vs, h => by
    obtain ⟨h1, h2, h3⟩ := h
    rw [renameVals, List.lookup_cons, KVal.get?]
    by_cases hkk : k'.value = k.value
    · have : ν k = ν k' := (hν _ _ hk h1).mpr hkk.symm
      simp [this, hkk]
    · have : ν k ≠ ν k' := fun e => hkk ((hν _ _ hk h1).mp e).symm
      rw [if_neg hkk, beq_false_of_ne this]
      exact lookup_rename hν hk vs h3

theorem lookup_keys {k : Key} {v : KVal α} : ∀ (vs : List (Key × KVal α)), ValsKeysIn S vs → KVal.get? vs k = some v → ValKeysIn S v
  | [], _, h => by simp [KVal.get?] at h
  | (k', w) :: vs, h, hl => by
    obtain ⟨h1, h2, h3⟩ := h
    rw [KVal.get?] at hl
    split at hl
    · cases hl; exact h2
    · exact lookup_keys vs h3 hl

/-! ### Lengths -/

mutual
theorem flatLen_rename (ν : Key → String) (free : Bool) : ∀ t : KPattern, t.flatLen free = (rename ν t).flatLen free
  | .leaf p => by rw [KPattern.flatLen, rename]
  | .dict es l fd => by rw [KPattern.flatLen, rename, Pattern.flatLen]; exact flatLenEs_rename ν free es
theorem flatLenEs_rename (ν : Key → String) (free : Bool) : ∀ es : KEntries, KPattern.flatLenEs es free = flatLenEs (renameEs ν es) free
  | .nil => by rw [KPattern.flatLenEs, renameEs, flatLenEs]
  | .cons k p r => by rw [KPattern.flatLenEs, renameEs, flatLenEs, flatLen_rename ν free p, flatLenEs_rename ν free r]
end

theorem freeDefault_rename (ν : Key → String) (t : KPattern) : (rename ν t).freeDefault = t.freeDefault := by
  cases t <;> rfl

/-! ### Validation -/

mutual
/-- The entries that are not dictionaries are objects of other classes. -/
def LeafWF : KPattern → Prop
  | .leaf p => p.isDict = false
  | .dict es _ _ => LeafWFEs es
/-- `LeafWF` for every member. -/
def LeafWFEs : KEntries → Prop
  | .nil => True
  | .cons _ p r => LeafWF p ∧ LeafWFEs r
end

section
variable [Elem α] {fmt : Flt → String} {shw : Key → String}

theorem validate_dict_err {p : Pattern} (h : p.isDict = false) (vs : List (String × Val α)) (vv : Option Bool) :
    p.validate (.dict vs) vv = .error .typeError := by
  cases p <;> simp_all [isDict, Pattern.validate, Val.asArr, bind, Except.bind]

theorem flattenNF_dict_err {p : Pattern} (h : p.isDict = false) (vs : List (String × Val α)) (vv : Option Bool) :
    p.flattenNF (.dict vs) vv = .error .typeError := by
  cases p <;> simp_all [isDict, Pattern.flattenNF, Pattern.validate, requireValid, Val.asArr, bind, Except.bind]

theorem flattenFree_dict_err {p : Pattern} (h : p.isDict = false) (vs : List (String × Val Flt)) (vv : Option Bool) :
    p.flattenFree (.dict vs) vv = .error .typeError := by
  cases p <;> simp_all [isDict, Pattern.flattenFree, Pattern.validate, requireValid, Val.asArr, bind, Except.bind]

theorem flatIdx_dict_err {p : Pattern} (h : p.isDict = false) (vs : List (String × Val Bool)) (free : Bool) :
    p.flatIdx (.dict vs) free = .error .typeError := by
  cases p <;> simp_all [isDict, Pattern.flatIdx, Pattern.validate, requireValid, Val.asArr, bind, Except.bind]

theorem flatIndices_dict_err {p : Pattern} (h : p.isDict = false) (vs : List (String × Val Bool)) (free : Option Bool) :
    p.flatIndices (.dict vs) free = .error .typeError ∨ (∃ s b fd, p = .array s b fd) := by
  cases p <;> simp_all [isDict, Pattern.flatIndices]

/-- How the results of the two validations are related. -/
def VRel (E : Prop) (a b : Bool × String) : Prop := a.1 = b.1 ∧ (E → a.2 = b.2)

mutual
theorem validate_rename (hν : InjIn S ν) (hE : E → ∀ k, S k → shw k = ν k) : ∀ (t : KPattern) (v : KVal α) (vv : Option Bool), LeafWF t →
    KeysIn S t → ValKeysIn S v → AgreeE E (VRel E) (t.validate shw v vv) ((rename ν t).validate (renameVal ν v) vv)
  | .leaf p, .arr a, vv, _, _, _ => by
    simp only [KPattern.validate, rename, renameVal, KVal.asArr, bind, Except.bind]
    exact .same fun _ => ⟨rfl, fun _ => rfl⟩
  | .leaf p, .dict vs, vv, h, _, _ => by
    simp only [KPattern.validate, rename, renameVal, KVal.asArr, bind, Except.bind]
    rw [validate_dict_err h]
    exact .error rfl fun _ => rfl
  | .dict es l fd, .arr a, vv, _, _, _ => by
    simp only [KPattern.validate, rename, renameVal, KVal.asDict, bind, Except.bind, Pattern.validate, Val.asDict]
    exact .error rfl fun _ => rfl
  | .dict es l fd, .dict vs, vv, h, h1, h2 => by
    simp only [KPattern.validate, rename, renameVal, KVal.asDict, bind, Except.bind, Pattern.validate, Val.asDict]
    exact validateEs_rename hν hE es vs vv h h1 h2
theorem validateEs_rename (hν : InjIn S ν) (hE : E → ∀ k, S k → shw k = ν k) : ∀ (es : KEntries) (vs : List (Key × KVal α)) (vv : Option Bool),
    LeafWFEs es → KeysInEs S es → ValsKeysIn S vs →
    AgreeE E (VRel E) (KPattern.validateEs shw es vs vv) (validateEs (renameEs ν es) (renameVals ν vs) vv)
  | .nil, vs, vv, _, _, _ => by
    rw [KPattern.validateEs, renameEs, Pattern.validateEs]
    exact .ok ⟨rfl, fun _ => rfl⟩
  | .cons k p r, vs, vv, h, h1, h2 => by
    rw [KPattern.validateEs, renameEs, Pattern.validateEs, lookup_rename hν h1.1 vs h2]
    cases hl : KVal.get? vs k with
    | none => exact .ok ⟨rfl, fun e => by simp only [hE e k h1.1]⟩
    | some v =>
      simp only [Option.map_some]
      refine (validate_rename hν hE p v vv h.1 h1.2.1 (lookup_keys vs h2 hl)).bind fun a b hab => ?_
      obtain ⟨a1, a2⟩ := a
      obtain ⟨b1, b2⟩ := b
      obtain ⟨h3, h4⟩ := hab
      simp only at h3 h4
      subst h3
      cases a1 with
      | false => exact .ok ⟨rfl, fun e => by simp only [h4 e]⟩
      | true => exact validateEs_rename hν hE r vs vv h.2 h1.2.2 h2
end

theorem requireValid_agree {r s : Except Err (Bool × String)} (h : AgreeE E (VRel E) r s) :
    AgreeE E (fun _ _ => True) (requireValid r) (requireValid s) := by
  refine h.bind fun a b hab => ?_
  obtain ⟨a1, a2⟩ := a
  obtain ⟨b1, b2⟩ := b
  obtain ⟨h3, h4⟩ := hab
  simp only at h3 h4
  subst h3
  cases a1 with
  | false => exact .error trivial fun e => by simp only [h4 e]
  | true => exact .ok trivial

/-! ### `str` -/

mutual
theorem str_strings {t : KPattern} (fmt : Flt → String) (h : KeysIn IsStr t) : ∃ s, t.str fmt = .ok s := by
  match t, h with
  | .leaf p, _ => exact ⟨_, rfl⟩
  | .dict es l fd, h =>
    obtain ⟨s, hs⟩ := strEs_strings fmt (es := es) h
    exact ⟨_, by rw [KPattern.str, hs]; rfl⟩
theorem strEs_strings {es : KEntries} (fmt : Flt → String) (h : KeysInEs IsStr es) : ∃ s, KPattern.strEs fmt es = .ok s := by
  match es, h with
  | .nil, _ => exact ⟨_, rfl⟩
  | .cons k p r, h =>
    obtain ⟨⟨s, rfl⟩, h1, h2⟩ := h
    obtain ⟨s1, h1⟩ := str_strings fmt h1
    obtain ⟨s2, h2⟩ := strEs_strings fmt h2
    exact ⟨_, by rw [KPattern.strEs, h1, h2]; rfl⟩
end

mutual
theorem str_cases (fmt : Flt → String) : ∀ t : KPattern, (KeysIn IsStr t ∧ ∃ s, t.str fmt = .ok s) ∨ (¬ KeysIn IsStr t ∧ t.str fmt = .error .typeError)
  | .leaf p => .inl ⟨trivial, _, rfl⟩
  | .dict es l fd => by
    rcases strEs_cases fmt es with ⟨h, s, hs⟩ | ⟨h, hs⟩
    · exact .inl ⟨h, _, by rw [KPattern.str, hs]; rfl⟩
    · exact .inr ⟨h, by rw [KPattern.str, hs]; rfl⟩
theorem strEs_cases (fmt : Flt → String) : ∀ es : KEntries,
    (KeysInEs IsStr es ∧ ∃ s, KPattern.strEs fmt es = .ok s) ∨ (¬ KeysInEs IsStr es ∧ KPattern.strEs fmt es = .error .typeError)
  | .nil => .inl ⟨trivial, _, rfl⟩
  | .cons k p r => by
    by_cases hk : IsStr k
    · obtain ⟨s, rfl⟩ := hk
      rcases str_cases fmt p with ⟨h1, s1, hs1⟩ | ⟨h1, hs1⟩
      · rcases strEs_cases fmt r with ⟨h2, s2, hs2⟩ | ⟨h2, hs2⟩
        · exact .inl ⟨⟨⟨_, rfl⟩, h1, h2⟩, _, by rw [KPattern.strEs, hs1, hs2]; rfl⟩
        · exact .inr ⟨fun h => h2 h.2.2, by rw [KPattern.strEs, hs1, hs2]; rfl⟩
      · exact .inr ⟨fun h => h1 h.2.1, by rw [KPattern.strEs, hs1]; rfl⟩
    · refine .inr ⟨fun h => hk h.1, ?_⟩
      have : k.addable = .error .typeError := by
        cases k with
        | str s => exact absurd ⟨s, rfl⟩ hk
        | _ => rfl
      rw [KPattern.strEs, this]; rfl
end

/-! ### Folding -/

/-- The size of the argument is checked without writing the pattern. -/
def SizeOk (t : KPattern) (x : NDArray α) (n : Nat) : Prop := x.atleast1d.size = n ∨ KeysIn IsStr t

omit [Elem α] in
theorem checkFlat_agree {t : KPattern} {x : NDArray α} {n : Nat} (h : SizeOk t x n) :
    AgreeE E (fun a b => a = b ∧ a.size = n) (KPattern.checkFlat fmt t x n) (checkFlat x n) := by
  rw [KPattern.checkFlat, Pattern.checkFlat]
  by_cases h1 : x.atleast1d.ndim = 1
  · by_cases h2 : x.atleast1d.size = n
    · simp only [h1, h2, ne_eq, not_true_eq_false, if_false]
      exact .ok ⟨rfl, h2⟩
    · obtain ⟨s, hs⟩ := str_strings fmt (h.resolve_left h2)
      simp only [h1, h2, ne_eq, not_true_eq_false, not_false_eq_true, if_true, if_false, hs, bind, Except.bind]
      exact .error trivial fun _ => rfl
  · simp only [h1, ne_eq, not_false_eq_true, if_true]
    exact .error trivial fun _ => rfl

omit [Elem α] in
theorem slice_size (x : NDArray α) {o k : Nat} (h : o + k ≤ x.data.length) : (x.slice o k).atleast1d.size = k := by
  simp [NDArray.slice, NDArray.atleast1d, NDArray.size, NDArray.vec]
  omega

theorem foldNF_arr {p : Pattern} (h : p.isDict = false) {x : NDArray α} {vv : Option Bool} {v : Val α} (hv : p.foldNF x vv = .ok v) :
    ∃ a, v = .arr a := by
  cases p with
  | dict es l fd => simp [isDict] at h
  | array s b fd =>
    simp only [Pattern.foldNF] at hv
    obtain ⟨_, _, hv⟩ := bind_ok hv
    obtain ⟨a, _, hv⟩ := bind_ok hv
    obtain ⟨_, _, hv⟩ := bind_ok hv
    exact ⟨a, (Except.ok.inj hv).symm⟩
  | _ =>
    simp only [Pattern.foldNF] at hv
    obtain ⟨a, _, hv⟩ := bind_ok hv
    exact ⟨a, (Except.ok.inj hv).symm⟩

theorem foldFree_arr {p : Pattern} (h : p.isDict = false) {x : NDArray Flt} {v : Val Flt} (hv : p.foldFree x = .ok v) : ∃ a, v = .arr a := by
  cases p with
  | dict es l fd => simp [isDict] at h
  | array s b fd =>
    simp only [Pattern.foldFree] at hv
    obtain ⟨_, _, hv⟩ := bind_ok hv
    obtain ⟨a, _, hv⟩ := bind_ok hv
    exact ⟨a, (Except.ok.inj hv).symm⟩
  | _ =>
    simp only [Pattern.foldFree] at hv
    obtain ⟨a, _, hv⟩ := bind_ok hv
    exact ⟨a, (Except.ok.inj hv).symm⟩

theorem empty_arr {p : Pattern} (h : p.isDict = false) {v : Val Flt} (hv : p.empty = .ok v) : ∃ a, v = .arr a := by
  cases p with
  | dict es l fd => simp [isDict] at h
  | numeric c s lb ub dv fd =>
    simp only [Pattern.empty] at hv
    obtain ⟨_, _, hv⟩ := bind_ok hv
    exact ⟨_, (Except.ok.inj hv).symm⟩
  | array s b fd =>
    simp only [Pattern.empty] at hv
    obtain ⟨_, _, hv⟩ := bind_ok hv
    obtain ⟨_, _, hv⟩ := bind_ok hv
    obtain ⟨_, _, hv⟩ := bind_ok hv
    obtain ⟨_, _, hv⟩ := bind_ok hv
    exact ⟨_, (Except.ok.inj hv).symm⟩
  | _ =>
    simp only [Pattern.empty] at hv
    exact ⟨_, (Except.ok.inj hv).symm⟩

/-- How folded values are related. -/
def FRel (S : Key → Prop) (ν : Key → String) {α : Type} (v : KVal α) (w : Val α) : Prop := renameVal ν v = w ∧ ValKeysIn S v

/-- How lists of folded values are related. -/
def FRels (S : Key → Prop) (ν : Key → String) {α : Type} (v : List (Key × KVal α)) (w : List (String × Val α)) : Prop :=
  renameVals ν v = w ∧ ValsKeysIn S v

omit [Elem α] in
theorem leaf_agree {r : Except Err (Val α)} (h : ∀ v, r = .ok v → ∃ a, v = .arr a) :
    AgreeE E (FRel S ν) (do let v ← r; let a ← v.asArr; return .arr a) r := by
  cases r with
  | error e => exact .error (SameKind.refl e) fun _ => rfl
  | ok v =>
    obtain ⟨a, rfl⟩ := h v rfl
    exact .ok ⟨rfl, trivial⟩

mutual
theorem foldNF_rename (hν : InjIn S ν) (hE : E → ∀ k, S k → shw k = ν k) : ∀ (t : KPattern) (x : NDArray α) (vv : Option Bool), LeafWF t →
    KeysIn S t → SizeOk t x (t.flatLen false) → AgreeE E (FRel S ν) (t.foldNF fmt shw x vv) ((rename ν t).foldNF x vv)
  | .leaf p, x, vv, h, _, _ => by
    rw [KPattern.foldNF, rename]
    exact leaf_agree fun v hv => foldNF_arr h hv
  | .dict es l fd, x, vv, h, h1, h2 => by
    rw [KPattern.foldNF, rename, Pattern.foldNF, ← flatLenEs_rename]
    refine (checkFlat_agree h2).bind fun a b hab => ?_
    obtain ⟨rfl, hsz⟩ := hab
    refine (foldNFEs_rename hν hE es a vv 0 h h1 (.inl (by rw [Nat.zero_add]; exact hsz.ge))).bind fun vs ws hvs => ?_
    obtain ⟨rfl, hvs⟩ := hvs
    have := validate_rename hν hE (.dict es l fd) (.dict vs) vv h h1 hvs
    refine (requireValid_agree this).bind fun _ _ _ => ?_
    exact .ok ⟨rfl, hvs⟩
theorem foldNFEs_rename (hν : InjIn S ν) (hE : E → ∀ k, S k → shw k = ν k) : ∀ (es : KEntries) (x : NDArray α) (vv : Option Bool) (o : Nat),
    LeafWFEs es → KeysInEs S es → (o + KPattern.flatLenEs es false ≤ x.data.length ∨ KeysInEs IsStr es) →
    AgreeE E (FRels S ν) (KPattern.foldNFEs fmt shw es x vv o) (foldNFEs (renameEs ν es) x vv o)
  | .nil, x, vv, o, _, _, _ => by
    rw [KPattern.foldNFEs, renameEs, Pattern.foldNFEs]
    exact .ok ⟨rfl, trivial⟩
  | .cons k p r, x, vv, o, h, h1, h2 => by
    rw [KPattern.foldNFEs, renameEs, Pattern.foldNFEs, ← flatLen_rename]
    have hs : SizeOk p (x.slice o (p.flatLen false)) (p.flatLen false) := by
      rcases h2 with h2 | h2
      · rw [KPattern.flatLenEs] at h2
        exact .inl (slice_size x (by omega))
      · exact .inr h2.2.1
    refine (foldNF_rename hν hE p _ vv h.1 h1.2.1 hs).bind fun v w hv => ?_
    have hs' : o + p.flatLen false + KPattern.flatLenEs r false ≤ x.data.length ∨ KeysInEs IsStr r := by
      rcases h2 with h2 | h2
      · rw [KPattern.flatLenEs] at h2
        exact .inl (by omega)
      · exact .inr h2.2.2
    refine (foldNFEs_rename hν hE r x vv _ h.2 h1.2.2 hs').bind fun vs ws hvs => ?_
    obtain ⟨rfl, hv⟩ := hv
    obtain ⟨rfl, hvs⟩ := hvs
    exact .ok ⟨rfl, h1.1, hv, hvs⟩
end

mutual
theorem foldFree_rename (ν : Key → String) : ∀ (t : KPattern) (x : NDArray Flt), LeafWF t →
    KeysIn S t → SizeOk t x (t.flatLen true) → AgreeE E (FRel S ν) (t.foldFree fmt x) ((rename ν t).foldFree x)
  | .leaf p, x, h, _, _ => by
    rw [KPattern.foldFree, rename]
    exact leaf_agree fun v hv => foldFree_arr h hv
  | .dict es l fd, x, h, h1, h2 => by
    rw [KPattern.foldFree, rename, Pattern.foldFree, ← flatLenEs_rename]
    refine (checkFlat_agree h2).bind fun a b hab => ?_
    obtain ⟨rfl, hsz⟩ := hab
    refine (foldFreeEs_rename ν es a 0 h h1 (.inl (by rw [Nat.zero_add]; exact hsz.ge))).bind fun vs ws hvs => ?_
    obtain ⟨rfl, hvs⟩ := hvs
    exact .ok ⟨rfl, hvs⟩
theorem foldFreeEs_rename (ν : Key → String) : ∀ (es : KEntries) (x : NDArray Flt) (o : Nat),
    LeafWFEs es → KeysInEs S es → (o + KPattern.flatLenEs es true ≤ x.data.length ∨ KeysInEs IsStr es) →
    AgreeE E (FRels S ν) (KPattern.foldFreeEs fmt es x o) (foldFreeEs (renameEs ν es) x o)
  | .nil, x, o, _, _, _ => by
    rw [KPattern.foldFreeEs, renameEs, Pattern.foldFreeEs]
    exact .ok ⟨rfl, trivial⟩
  | .cons k p r, x, o, h, h1, h2 => by
    rw [KPattern.foldFreeEs, renameEs, Pattern.foldFreeEs, ← flatLen_rename]
    have hs : SizeOk p (x.slice o (p.flatLen true)) (p.flatLen true) := by
      rcases h2 with h2 | h2
      · rw [KPattern.flatLenEs] at h2
        exact .inl (slice_size x (by omega))
      · exact .inr h2.2.1
    refine (foldFree_rename ν p _ h.1 h1.2.1 hs).bind fun v w hv => ?_
    have hs' : o + p.flatLen true + KPattern.flatLenEs r true ≤ x.data.length ∨ KeysInEs IsStr r := by
      rcases h2 with h2 | h2
      · rw [KPattern.flatLenEs] at h2
        exact .inl (by omega)
      · exact .inr h2.2.2
    refine (foldFreeEs_rename ν r x _ h.2 h1.2.2 hs').bind fun vs ws hvs => ?_
    obtain ⟨rfl, hv⟩ := hv
    obtain ⟨rfl, hvs⟩ := hvs
    exact .ok ⟨rfl, h1.1, hv, hvs⟩
end

omit [Elem α] in
/-- A wrong size: the pattern is written first. -/
theorem fold_wrong (t : KPattern) (x : NDArray α) (n : Nat) (h1 : x.atleast1d.ndim = 1) (h2 : x.atleast1d.size ≠ n) :
    (KeysIn IsStr t → KPattern.checkFlat fmt t x n = .error (.valueError "Wrong size.")) ∧
    (¬ KeysIn IsStr t → KPattern.checkFlat fmt t x n = .error .typeError) := by
  have e : KPattern.checkFlat fmt t x n = (do let _ ← t.str fmt; throw (.valueError "Wrong size.")) := by
    rw [KPattern.checkFlat]
    simp only [h1, h2, ne_eq, not_true_eq_false, not_false_eq_true, if_true, if_false]
    cases t.str fmt <;> rfl
  rcases str_cases fmt t with ⟨h, s, hs⟩ | ⟨h, hs⟩
  · exact ⟨fun _ => by rw [e, hs]; rfl, fun h' => absurd h h'⟩
  · exact ⟨fun h' => absurd h' h, fun _ => by rw [e, hs]; rfl⟩

/-! ### Flattening -/

omit [Elem α] in
theorem asDict_agree {v : KVal α} (h : ValKeysIn S v) : AgreeE E (FRels S ν) v.asDict (renameVal ν v).asDict := by
  cases v with
  | arr a => exact .error rfl fun _ => rfl
  | dict vs => exact .ok ⟨rfl, h⟩

mutual
theorem flattenNF_rename (hν : InjIn S ν) (hE : E → ∀ k, S k → shw k = ν k) : ∀ (t : KPattern) (v : KVal α) (vv : Option Bool), LeafWF t →
    KeysIn S t → ValKeysIn S v → AgreeE E (fun a b => a = b) (t.flattenNF shw v vv) ((rename ν t).flattenNF (renameVal ν v) vv)
  | .leaf p, .arr a, vv, _, _, _ => by
    simp only [KPattern.flattenNF, rename, renameVal, KVal.asArr, bind, Except.bind]
    exact .same fun _ => rfl
  | .leaf p, .dict vs, vv, h, _, _ => by
    simp only [KPattern.flattenNF, rename, renameVal, KVal.asArr, bind, Except.bind]
    rw [flattenNF_dict_err h]
    exact .error rfl fun _ => rfl
  | .dict es l fd, v, vv, h, h1, h2 => by
    have hv := validate_rename hν hE (.dict es l fd) v vv h h1 h2
    rw [KPattern.flattenNF]
    simp only [rename, Pattern.flattenNF] at hv ⊢
    refine (requireValid_agree hv).bind fun _ _ _ => (asDict_agree h2).bind fun vs ws hvs => ?_
    obtain ⟨rfl, hvs⟩ := hvs
    refine (flattenNFEs_rename hν hE es vs vv h h1 hvs).bind fun a b hab => ?_
    subst hab
    exact .same fun _ => rfl
theorem flattenNFEs_rename (hν : InjIn S ν) (hE : E → ∀ k, S k → shw k = ν k) : ∀ (es : KEntries) (vs : List (Key × KVal α)) (vv : Option Bool),
    LeafWFEs es → KeysInEs S es → ValsKeysIn S vs →
    AgreeE E (fun a b => a = b) (KPattern.flattenNFEs shw es vs vv) (flattenNFEs (renameEs ν es) (renameVals ν vs) vv)
  | .nil, vs, vv, _, _, _ => by
    rw [KPattern.flattenNFEs, renameEs, Pattern.flattenNFEs]
    exact .ok rfl
  | .cons k p r, vs, vv, h, h1, h2 => by
    rw [KPattern.flattenNFEs, renameEs, Pattern.flattenNFEs, lookup_rename hν h1.1 vs h2]
    cases hl : KVal.get? vs k with
    | none => exact .error trivial fun e => by simp only [hE e k h1.1]
    | some v =>
      simp only [Option.map_some]
      refine (flattenNF_rename hν hE p v vv h.1 h1.2.1 (lookup_keys vs h2 hl)).bind fun a b hab => ?_
      refine (flattenNFEs_rename hν hE r vs vv h.2 h1.2.2 h2).bind fun a' b' hab' => ?_
      exact .ok (by rw [hab, hab'])
end

mutual
theorem flattenFree_rename (hν : InjIn S ν) (hE : E → ∀ k, S k → shw k = ν k) : ∀ (t : KPattern) (v : KVal Flt) (vv : Option Bool), LeafWF t →
    KeysIn S t → ValKeysIn S v → AgreeE E (fun a b => a = b) (t.flattenFree shw v vv) ((rename ν t).flattenFree (renameVal ν v) vv)
  | .leaf p, .arr a, vv, _, _, _ => by
    simp only [KPattern.flattenFree, rename, renameVal, KVal.asArr, bind, Except.bind]
    exact .same fun _ => rfl
  | .leaf p, .dict vs, vv, h, _, _ => by
    simp only [KPattern.flattenFree, rename, renameVal, KVal.asArr, bind, Except.bind]
    rw [flattenFree_dict_err h]
    exact .error rfl fun _ => rfl
  | .dict es l fd, v, vv, h, h1, h2 => by
    have hv := validate_rename hν hE (.dict es l fd) v vv h h1 h2
    rw [KPattern.flattenFree]
    simp only [rename, Pattern.flattenFree] at hv ⊢
    refine (requireValid_agree hv).bind fun _ _ _ => (asDict_agree h2).bind fun vs ws hvs => ?_
    obtain ⟨rfl, hvs⟩ := hvs
    refine (flattenFreeEs_rename hν hE es vs vv h h1 hvs).bind fun a b hab => ?_
    subst hab
    exact .same fun _ => rfl
theorem flattenFreeEs_rename (hν : InjIn S ν) (hE : E → ∀ k, S k → shw k = ν k) : ∀ (es : KEntries) (vs : List (Key × KVal Flt)) (vv : Option Bool),
    LeafWFEs es → KeysInEs S es → ValsKeysIn S vs →
    AgreeE E (fun a b => a = b) (KPattern.flattenFreeEs shw es vs vv) (flattenFreeEs (renameEs ν es) (renameVals ν vs) vv)
  | .nil, vs, vv, _, _, _ => by
    rw [KPattern.flattenFreeEs, renameEs, Pattern.flattenFreeEs]
    exact .ok rfl
  | .cons k p r, vs, vv, h, h1, h2 => by
    rw [KPattern.flattenFreeEs, renameEs, Pattern.flattenFreeEs, lookup_rename hν h1.1 vs h2]
    cases hl : KVal.get? vs k with
    | none => exact .error trivial fun e => by simp only [hE e k h1.1]
    | some v =>
      simp only [Option.map_some]
      refine (flattenFree_rename hν hE p v vv h.1 h1.2.1 (lookup_keys vs h2 hl)).bind fun a b hab => ?_
      refine (flattenFreeEs_rename hν hE r vs vv h.2 h1.2.2 h2).bind fun a' b' hab' => ?_
      exact .ok (by rw [hab, hab'])
end

/-! ### Indices and empty values -/

mutual
theorem flatIdx_rename (hν : InjIn S ν) (hE : E → ∀ k, S k → shw k = ν k) : ∀ (t : KPattern) (v : KVal Bool) (free : Bool), LeafWF t →
    KeysIn S t → ValKeysIn S v → AgreeE E (fun a b => a = b) (t.flatIdx shw v free) ((rename ν t).flatIdx (renameVal ν v) free)
  | .leaf p, .arr a, free, _, _, _ => by
    simp only [KPattern.flatIdx, rename, renameVal, KVal.asArr, bind, Except.bind]
    exact .same fun _ => rfl
  | .leaf p, .dict vs, free, h, _, _ => by
    simp only [KPattern.flatIdx, rename, renameVal, KVal.asArr, bind, Except.bind]
    rw [flatIdx_dict_err h]
    exact .error rfl fun _ => rfl
  | .dict es l fd, v, free, h, h1, h2 => by
    have hv := validate_rename hν hE (.dict es l fd) v (some false) h h1 h2
    rw [KPattern.flatIdx]
    simp only [rename, Pattern.flatIdx] at hv ⊢
    refine (requireValid_agree hv).bind fun _ _ _ => (asDict_agree h2).bind fun vs ws hvs => ?_
    obtain ⟨rfl, hvs⟩ := hvs
    exact flatIdxEs_rename hν hE es vs free 0 h h1 hvs
theorem flatIdxEs_rename (hν : InjIn S ν) (hE : E → ∀ k, S k → shw k = ν k) : ∀ (es : KEntries) (vs : List (Key × KVal Bool)) (free : Bool) (o : Nat),
    LeafWFEs es → KeysInEs S es → ValsKeysIn S vs →
    AgreeE E (fun a b => a = b) (KPattern.flatIdxEs shw es vs free o) (flatIdxEs (renameEs ν es) (renameVals ν vs) free o)
  | .nil, vs, free, o, _, _, _ => by
    rw [KPattern.flatIdxEs, renameEs, Pattern.flatIdxEs]
    exact .ok rfl
  | .cons k p r, vs, free, o, h, h1, h2 => by
    rw [KPattern.flatIdxEs, renameEs, Pattern.flatIdxEs, lookup_rename hν h1.1 vs h2, ← flatLen_rename]
    cases hl : KVal.get? vs k with
    | none => exact .error trivial fun e => by simp only [hE e k h1.1]
    | some v =>
      simp only [Option.map_some]
      refine (flatIdx_rename hν hE p v free h.1 h1.2.1 (lookup_keys vs h2 hl)).bind fun a b hab => ?_
      refine (flatIdxEs_rename hν hE r vs free _ h.2 h1.2.2 h2).bind fun a' b' hab' => ?_
      exact .ok (by rw [hab, hab'])
end

mutual
theorem empty_rename (ν : Key → String) : ∀ t : KPattern, LeafWF t → KeysIn S t → AgreeE E (FRel S ν) t.empty (rename ν t).empty
  | .leaf p, h, _ => by
    rw [KPattern.empty, rename]
    exact leaf_agree fun v hv => empty_arr h hv
  | .dict es l fd, h, h1 => by
    rw [KPattern.empty, rename, Pattern.empty]
    refine (emptyEs_rename ν es h h1).bind fun vs ws hvs => ?_
    obtain ⟨rfl, hvs⟩ := hvs
    exact .ok ⟨rfl, hvs⟩
theorem emptyEs_rename (ν : Key → String) : ∀ es : KEntries, LeafWFEs es → KeysInEs S es →
    AgreeE E (FRels S ν) (KPattern.emptyEs es) (emptyEs (renameEs ν es))
  | .nil, _, _ => by
    rw [KPattern.emptyEs, renameEs, Pattern.emptyEs]
    exact .ok ⟨rfl, trivial⟩
  | .cons k p r, h, h1 => by
    rw [KPattern.emptyEs, renameEs, Pattern.emptyEs]
    refine (empty_rename ν p h.1 h1.2.1).bind fun v w hv => (emptyEs_rename ν r h.2 h1.2.2).bind fun vs ws hvs => ?_
    obtain ⟨rfl, hv⟩ := hv
    obtain ⟨rfl, hvs⟩ := hvs
    exact .ok ⟨rfl, h1.1, hv, hvs⟩
end

end

end Keys
end Paragami
