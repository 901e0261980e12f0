import Verif.Proofs.Json

/-! # Lemmas about edited JSON texts -/

namespace Paragami

namespace Spec

/-- The two values are the same but for the order of the entries of dictionaries, also inside JSON texts. -/
inductive SameJson : PyVal → PyVal → Prop
  | refl (v : PyVal) : SameJson v v
  | text {v w : PyVal} : SameJson v w → SameJson (.text v) (.text w)
  | dict {fs gs : List (String × PyVal)} : (fs.map (·.1)).Nodup → (gs.map (·.1)).Nodup →
      (∀ k, fs.lookup k = none ↔ gs.lookup k = none) → (∀ k v w, fs.lookup k = some v → gs.lookup k = some w → SameJson v w) →
      SameJson (.dict fs) (.dict gs)

/-- The entries that the JSON text of a class may have besides `pattern`: for the classes whose `from_json` is inherited, the arguments of the
constructor; for the others, what they read. -/
def entries : Builtin → List String
  | .numericArray => ["shape", "lb", "ub", "default_validate", "free_default"]
  | .numericVector => ["length", "lb", "ub", "default_validate", "free_default"]
  | .numericScalar => ["lb", "ub", "default_validate", "free_default"]
  | .psd => ["size", "diag_lb", "default_validate", "free_default"]
  | .simplex => ["simplex_size", "array_shape", "default_validate"]
  | .array => ["array_shape", "base_pattern"]
  | .dict => ["keys", "contents"]

/-- The entry without which the text cannot be read, if there is one. -/
def required : Builtin → List String
  | .numericArray => ["shape"]
  | .numericVector => ["length"]
  | .numericScalar => []
  | .psd => ["size"]
  | .simplex => ["simplex_size", "array_shape", "default_validate"]
  | .array => ["array_shape", "base_pattern"]
  | .dict => ["keys"]

/-- The classes with the inherited `from_json`, which passes the entries to the constructor. -/
def inherits : Builtin → Bool
  | .numericArray | .numericVector | .numericScalar | .psd => true
  | .simplex | .array | .dict => false

/-- The defaults of the constructor for the entries that are not required. -/
def default? : String → Option PyVal
  | "lb" => some (.num (.flt .ninf))
  | "ub" => some (.num (.flt .pinf))
  | "diag_lb" => some (.num (.flt 0))
  | "default_validate" => some (.bool true)
  | "free_default" => some .none
  | _ => none

end Spec

namespace JsonEdit
open Spec Json

theorem lookup_none_iff {β : Type} (l : List (String × β)) (k : String) : l.lookup k = none ↔ k ∉ l.map (·.1) := by
  induction l with
  | nil => simp
  | cons a l ih =>
    obtain ⟨k', v⟩ := a
    by_cases h : k = k'
    · subst h; simp
    · have : (k == k') = false := by simpa using h
      simp [List.lookup_cons, this, ih, h]

theorem lookup_filter {β : Type} (l : List (String × β)) (p : String → Bool) (k : String) :
    (l.filter fun f => p f.1).lookup k = if p k then l.lookup k else none := by
  induction l with
  | nil => simp
  | cons a l ih =>
    obtain ⟨k', v⟩ := a
    by_cases h : k = k'
    · subst h
      by_cases hp : p k = true
      · simp [hp]
      · simp [hp, ih]
    · have hk : (k == k') = false := by simpa using h
      by_cases hp : p k' = true <;> simp [hp, List.lookup_cons, hk, ih]

theorem lookup_append {β : Type} (l m : List (String × β)) (k : String) : (l ++ m).lookup k = (l.lookup k).or (m.lookup k) := by
  induction l with
  | nil => simp
  | cons a l ih =>
    obtain ⟨k', v⟩ := a
    by_cases h : k = k'
    · subst h; simp
    · have hk : (k == k') = false := by simpa using h
      simp [List.lookup_cons, hk, ih]

/-- The entries under a key correspond. -/
def Corr (fs gs : List (String × PyVal)) (k : String) : Prop :=
  (fs.lookup k = none ∧ gs.lookup k = none) ∨ ∃ v w, fs.lookup k = some v ∧ gs.lookup k = some w ∧ SameJson v w

theorem corr_of_dict {fs gs : List (String × PyVal)} (h1 : ∀ k, fs.lookup k = none ↔ gs.lookup k = none)
    (h2 : ∀ k v w, fs.lookup k = some v → gs.lookup k = some w → SameJson v w) (k : String) : Corr fs gs k := by
  cases hf : fs.lookup k with
  | none => exact .inl ⟨hf, (h1 k).1 hf⟩
  | some v =>
    cases hg : gs.lookup k with
    | none => exact absurd ((h1 k).2 hg) (by simp [hf])
    | some w => exact .inr ⟨v, w, hf, hg, h2 k v w hf hg⟩

variable {fs gs : List (String × PyVal)}

theorem kwNum_corr {k : String} (h : Corr fs gs k) (d : PyNum) : kwNum fs k d = kwNum gs k d := by
  rcases h with ⟨h1, h2⟩ | ⟨v, w, h1, h2, h⟩
  · simp only [kwNum, h1, h2]
  · cases h <;> simp only [kwNum, h1, h2]

theorem kwBool_corr {k : String} (h : Corr fs gs k) (d : Bool) : kwBool fs k d = kwBool gs k d := by
  rcases h with ⟨h1, h2⟩ | ⟨v, w, h1, h2, h⟩
  · simp only [kwBool, h1, h2]
  · cases h <;> simp only [kwBool, h1, h2]

theorem kwOptBool_corr {k : String} (h : Corr fs gs k) : kwOptBool fs k = kwOptBool gs k := by
  rcases h with ⟨h1, h2⟩ | ⟨v, w, h1, h2, h⟩
  · simp only [kwOptBool, h1, h2]
  · cases h <;> simp only [kwOptBool, h1, h2]

theorem asNat_same {v w : PyVal} (h : SameJson v w) : asNat v = asNat w := by cases h <;> rfl
theorem asNats_same {v w : PyVal} (h : SameJson v w) : asNats v = asNats w := by cases h <;> rfl

theorem kwReq_corr {k : String} (h : Corr fs gs k) {α : Type} {F : PyVal → Except Err α} (hF : ∀ v w, SameJson v w → F v = F w) :
    (kwReq fs k >>= F) = (kwReq gs k >>= F) := by
  rcases h with ⟨h1, h2⟩ | ⟨v, w, h1, h2, h⟩
  · simp only [kwReq, h1, h2]
  · simp only [kwReq, h1, h2, bind, Except.bind, hF v w h]

theorem field_corr {k : String} (h : Corr fs gs k) {α : Type} {F G : PyVal → Except Err α} (hF : ∀ v w, SameJson v w → F v = G w) :
    (field fs k >>= F) = (field gs k >>= G) := by
  rcases h with ⟨h1, h2⟩ | ⟨v, w, h1, h2, h⟩
  · simp only [field, h1, h2, bind, Except.bind]
  · simp only [field, h1, h2, bind, Except.bind, hF v w h]

theorem checkKw_corr (h : ∀ k, Corr fs gs k) (params : List String) : checkKw fs params = checkKw gs params := by
  have key : ∀ {fs gs : List (String × PyVal)}, (∀ k, Corr fs gs k) → (fs.all fun f => params.contains f.1) = true →
      (gs.all fun f => params.contains f.1) = true := by
    intro fs gs h ha
    rw [List.all_eq_true] at ha ⊢
    rintro ⟨k, u⟩ hm
    show params.contains k = true
    have hk : k ∈ fs.map (·.1) := by
      by_contra hn
      rw [← lookup_none_iff] at hn
      rcases h k with ⟨_, h2⟩ | ⟨v, w, h1, _, _⟩
      · exact (lookup_none_iff gs k).1 h2 (List.mem_map.2 ⟨_, hm, rfl⟩)
      · rw [hn] at h1; cases h1
    obtain ⟨⟨k', v⟩, hm', rfl⟩ := List.mem_map.1 hk
    exact (ha _ hm' : _)
  have sym : ∀ k, (gs.lookup k = none ↔ fs.lookup k = none) := by
    intro k
    rcases h k with ⟨h1, h2⟩ | ⟨v, w, h1, h2, _⟩ <;> simp [h1, h2]
  have key' : (gs.all fun f => params.contains f.1) = true → (fs.all fun f => params.contains f.1) = true := by
    intro ha
    rw [List.all_eq_true] at ha ⊢
    rintro ⟨k, u⟩ hm
    show params.contains k = true
    have hk : k ∈ gs.map (·.1) := by
      by_contra hn
      rw [← lookup_none_iff, sym, lookup_none_iff] at hn
      exact hn (List.mem_map.2 ⟨_, hm, rfl⟩)
    obtain ⟨⟨k', v⟩, hm', rfl⟩ := List.mem_map.1 hk
    exact (ha _ hm' : _)
  have : (fs.all fun f => params.contains f.1) = (gs.all fun f => params.contains f.1) := by
    rw [Bool.eq_iff_iff]; exact ⟨key h, key'⟩
  simp only [checkKw, this]

/-- Without the entry `pattern`. -/
theorem corr_kw (h : ∀ k, Corr fs gs k) (k : String) : Corr (fs.filter fun f => f.1 != "pattern") (gs.filter fun f => f.1 != "pattern") k := by
  unfold Corr
  rw [lookup_filter fs (· != "pattern"), lookup_filter gs (· != "pattern")]
  by_cases hk : (k != "pattern") = true
  · rw [if_pos hk, if_pos hk]; exact h k
  · rw [if_neg hk, if_neg hk]; exact .inl ⟨rfl, rfl⟩

theorem fillDict_congr {C D : List (String × Except Err Pattern)} (h : ∀ k, C.lookup k = D.lookup k) (ks : List PyVal) :
    ∀ d, fillDict C d ks = fillDict D d ks := by
  induction ks with
  | nil => intro d; simp only [fillDict]
  | cons v ks ih =>
    intro d
    cases v with
    | str k =>
      simp only [fillDict, h k]
      cases D.lookup k with
      | none => rfl
      | some p =>
        cases p with
        | error e => rfl
        | ok p =>
          simp only [bind, Except.bind]
          cases Pattern.setItem d k p with
          | error e => rfl
          | ok d' => exact ih d'
    | _ => simp only [fillDict]

theorem checkType_corr (h : Corr fs gs "pattern") (n : String) : checkType fs n = checkType gs n := by
  simp only [checkType]
  exact field_corr h fun v w h => by cases h <;> rfl

theorem newNumericArray_corr (h : ∀ k, Corr fs gs k) : newNumericArray fs = newNumericArray gs := by
  simp only [newNumericArray, checkKw_corr h, kwNum_corr (h _), kwBool_corr (h _), kwOptBool_corr (h _)]
  congr 1; funext _
  exact kwReq_corr (h _) fun v w hv => by rw [asNats_same hv]

theorem newNumericVector_corr (h : ∀ k, Corr fs gs k) : newNumericVector fs = newNumericVector gs := by
  simp only [newNumericVector, checkKw_corr h, kwNum_corr (h _), kwBool_corr (h _), kwOptBool_corr (h _)]
  congr 1; funext _
  exact kwReq_corr (h _) fun v w hv => by rw [asNat_same hv]

theorem newNumericScalar_corr (h : ∀ k, Corr fs gs k) : newNumericScalar fs = newNumericScalar gs := by
  simp only [newNumericScalar, checkKw_corr h, kwNum_corr (h _), kwBool_corr (h _), kwOptBool_corr (h _)]

theorem newPSD_corr (h : ∀ k, Corr fs gs k) : newPSD fs = newPSD gs := by
  simp only [newPSD, checkKw_corr h, kwNum_corr (h _), kwBool_corr (h _), kwOptBool_corr (h _)]
  congr 1; funext _
  exact kwReq_corr (h _) fun v w hv => by rw [asNat_same hv]

theorem newSimplex_corr (h1 : Corr fs gs "simplex_size") (h2 : Corr fs gs "array_shape") (h3 : Corr fs gs "default_validate") :
    newSimplex fs = newSimplex gs := by
  simp only [newSimplex]
  refine field_corr h1 fun v w hv => ?_
  rw [asNat_same hv]
  congr 1; funext k
  refine field_corr h2 fun v w hv => ?_
  rw [asNats_same hv]
  congr 1; funext s
  exact field_corr h3 fun v w hv => by cases hv <;> rfl

/-- Equal entries correspond. -/
theorem corr_eq {k : String} (h : fs.lookup k = gs.lookup k) : Corr fs gs k := by
  cases hf : fs.lookup k with
  | none => exact .inl ⟨hf, h ▸ hf⟩
  | some v => exact .inr ⟨v, v, hf, h ▸ hf, .refl v⟩

variable {reg : Registry} {user : Nat → PyVal → Except Err Pattern}

/-- What the entry `contents` holds. -/
noncomputable def members (reg : Registry) (user : Nat → PyVal → Except Err Pattern) : Option PyVal → Option (List (String × Except Err Pattern))
  | some (.dict cs) => some (getEach reg user cs)
  | _ => none

theorem getInner_lookup {fs : List (String × PyVal)} (hn : (fs.map (·.1)).Nodup) (k : String) :
    (getInner reg user fs).lookup k = members reg user (fs.lookup k) := by
  induction fs with
  | nil => simp only [getInner]; rfl
  | cons a fs ih =>
    obtain ⟨k', v⟩ := a
    rw [List.map_cons, List.nodup_cons] at hn
    by_cases h : k = k'
    · subst h
      have h0 := (lookup_none_iff fs k).2 hn.1
      cases v <;> simp only [getInner, List.lookup_cons, beq_self_eq_true, members] <;> rw [ih hn.2, h0] <;> rfl
    · have hk : (k == k') = false := by simpa using h
      cases v <;> simp only [getInner, List.lookup_cons, hk] <;> exact ih hn.2

/-- The members of a dictionary pattern as read from two corresponding entries. -/
def SameMembers (a b : Option (List (String × Except Err Pattern))) : Prop :=
  (a = none ∧ b = none) ∨ ∃ C D, a = some C ∧ b = some D ∧ ∀ k : String, C.lookup k = D.lookup k

theorem builtinFromJson_corr {b : Builtin} {e1 e2 : List (String × Except Err Pattern)} {i1 i2 : List (String × List (String × Except Err Pattern))}
    (hkw : inherits b = true → ∀ k, Corr fs gs k) (hp : Corr fs gs "pattern") (hc : inherits b = false → ∀ k ∈ entries b, Corr fs gs k)
    (he : b = .array → e1.lookup "base_pattern" = e2.lookup "base_pattern")
    (hi : b = .dict → SameMembers (i1.lookup "contents") (i2.lookup "contents")) :
    builtinFromJson b fs e1 i1 = builtinFromJson b gs e2 i2 := by
  simp only [builtinFromJson, checkType_corr hp]
  congr 1; funext _
  cases b with
  | numericArray => exact newNumericArray_corr (corr_kw (hkw rfl))
  | numericVector => exact newNumericVector_corr (corr_kw (hkw rfl))
  | numericScalar => exact newNumericScalar_corr (corr_kw (hkw rfl))
  | psd => exact newPSD_corr (corr_kw (hkw rfl))
  | simplex => exact newSimplex_corr (hc rfl _ (by simp [entries])) (hc rfl _ (by simp [entries])) (hc rfl _ (by simp [entries]))
  | array =>
    simp only [he rfl]
    cases e2.lookup "base_pattern" with
    | none => rfl
    | some base =>
      cases base with
      | error e => rfl
      | ok base =>
        simp only [bind, Except.bind]
        have := field_corr (hc rfl "array_shape" (by simp [entries])) (F := fun s => asNats s >>= fun s => Pattern.mkArray s base none) fun v w h => by rw [asNats_same h]
        simpa only [bind, Except.bind] using this
  | dict =>
    refine field_corr (hc rfl "keys" (by simp [entries])) fun v w h => ?_
    have hcon : (fs.map (·.1)).contains "contents" = (gs.map (·.1)).contains "contents" := by
      have : ("contents" ∈ fs.map (·.1)) ↔ "contents" ∈ gs.map (·.1) := by
        rw [← not_iff_not, ← lookup_none_iff, ← lookup_none_iff]
        rcases hc rfl "contents" (by simp [entries]) with ⟨h1, h2⟩ | ⟨v, w, h1, h2, _⟩ <;> simp [h1, h2]
      rw [Bool.eq_iff_iff, List.contains_iff_mem, List.contains_iff_mem]
      exact this
    have main : ∀ ks : List PyVal,
        ((match i1.lookup "contents" with
          | none => if ks.isEmpty then .ok (Pattern.mkDict none)
            else if (fs.map (·.1)).contains "contents" then .error .unmodelled else .error (.keyError "contents")
          | some contents => fillDict contents (Pattern.mkDict none) ks) : Except Err Pattern) =
        (match i2.lookup "contents" with
          | none => if ks.isEmpty then .ok (Pattern.mkDict none)
            else if (gs.map (·.1)).contains "contents" then .error .unmodelled else .error (.keyError "contents")
          | some contents => fillDict contents (Pattern.mkDict none) ks) := by
      intro ks
      rcases hi rfl with ⟨h1, h2⟩ | ⟨C, D, h1, h2, hCD⟩
      · rw [h1, h2, hcon]
      · rw [h1, h2]
        exact fillDict_congr hCD ks _
    cases h with
    | refl v =>
      cases v with
      | list ks => exact main ks
      | _ => rfl
    | text _ => rfl
    | dict _ _ _ _ => rfl

/-- What is read from values that are the same but for the order of entries. -/
theorem get_same (hu : ∀ id v w, SameJson v w → user id v = user id w) {v w : PyVal} (h : SameJson v w) :
    getPatternFromJson reg user v = getPatternFromJson reg user w ∧
    ∀ fs gs, v = .dict fs → w = .dict gs → ∀ k, (getEach reg user fs).lookup k = (getEach reg user gs).lookup k ∧
      SameMembers (members reg user (fs.lookup k)) (members reg user (gs.lookup k)) := by
  induction h with
  | refl v =>
    refine ⟨rfl, fun fs gs h1 h2 k => ?_⟩
    rw [h1] at h2; cases h2
    refine ⟨rfl, ?_⟩
    cases members reg user (fs.lookup k) with
    | none => exact .inl ⟨rfl, rfl⟩
    | some C => exact .inr ⟨C, C, rfl, rfl, fun _ => rfl⟩
  | @text v w h ih =>
    refine ⟨?_, fun fs gs h1 => by cases h1⟩
    cases h with
    | refl v => rfl
    | text _ => simp only [getPatternFromJson]
    | @dict fs gs n1 n2 h1 h2 =>
      have hc := corr_of_dict h1 h2
      have hb : ∀ b, builtinFromJson b fs (getEach reg user fs) (getInner reg user fs) =
          builtinFromJson b gs (getEach reg user gs) (getInner reg user gs) := by
        intro b
        refine builtinFromJson_corr (fun _ => hc) (hc _) (fun _ k _ => hc k) (fun _ => (ih.2 fs gs rfl rfl _).1) fun _ => ?_
        rw [getInner_lookup n1, getInner_lookup n2]
        exact (ih.2 fs gs rfl rfl _).2
      simp only [getPatternFromJson, dispatch]
      rcases hc "pattern" with ⟨e1, e2⟩ | ⟨v, w, e1, e2, hvw⟩
      · rw [e1, e2]
      · rw [e1, e2]
        cases hvw with
        | refl v =>
          cases v with
          | str n =>
            simp only
            cases reg.lookup n with
            | none => rfl
            | some c =>
              cases c with
              | builtin b => exact hb b
              | user m id => exact hu id _ _ (.text (.dict n1 n2 h1 h2))
          | _ => rfl
        | text _ => rfl
        | dict _ _ _ _ => rfl
  | @dict fs gs n1 n2 h1 h2 ih =>
    refine ⟨by simp only [getPatternFromJson], fun fs' gs' e1 e2 k => ?_⟩
    cases e1; cases e2
    rw [getEach_lookup, getEach_lookup]
    rcases corr_of_dict h1 h2 k with ⟨e1, e2⟩ | ⟨v, w, e1, e2, hvw⟩
    · rw [e1, e2]
      exact ⟨rfl, .inl ⟨rfl, rfl⟩⟩
    · rw [e1, e2]
      refine ⟨by simp only [Option.map_some, (ih k v w e1 e2).1], ?_⟩
      cases hvw with
      | refl v =>
        cases v with
        | dict cs => exact .inr ⟨_, _, rfl, rfl, fun _ => rfl⟩
        | _ => exact .inl ⟨rfl, rfl⟩
      | text _ => exact .inl ⟨rfl, rfl⟩
      | @dict cs ds _ _ _ _ => exact .inr ⟨_, _, rfl, rfl, fun j => ((ih k _ _ e1 e2).2 cs ds rfl rfl j).1⟩

end JsonEdit

end Paragami
