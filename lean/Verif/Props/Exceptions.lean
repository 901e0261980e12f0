import Verif.Spec.Exceptions
import Verif.Props.RoundTrip
import Verif.Proofs.Keys
/-!
# C144: which exceptions can occur
-/
namespace Paragami
open Pattern NDArray Spec
variable {α : Type} [Elem α]

namespace Exceptions

/-- The outcome, if it is an exception, satisfies `S`. -/
def Only {β : Type} (S : Err → Prop) (r : Except Err β) : Prop := ∀ e, r = .error e → S e

theorem only_ok {β : Type} {S : Err → Prop} (b : β) : Only S (.ok b) := fun _ h => by cases h
theorem only_error {β : Type} {S : Err → Prop} {e : Err} (h : S e) : Only S (.error e : Except Err β) := fun _ h' => by cases h'; exact h

theorem only_bind {β γ : Type} {S : Err → Prop} {r : Except Err β} {f : β → Except Err γ} (h : Only S r)
    (hf : ∀ b, r = .ok b → Only S (f b)) : Only S (r >>= f) := by
  cases r with
  | error e => exact only_error (h e rfl)
  | ok b => exact hf b rfl

theorem only_mapE {β γ : Type} {S : Err → Prop} {f : β → Except Err γ} {l : List β} (h : ∀ b ∈ l, Only S (f b)) : Only S (mapE f l) := by
  induction l with
  | nil => exact only_ok _
  | cons b l ih =>
    have h1 := h b (.head _)
    have h2 := ih fun c hc => h c (.tail _ hc)
    unfold mapE
    cases hb : f b with
    | error e => exact only_error (h1 e hb)
    | ok c =>
      dsimp only
      cases hl : mapE f l with
      | error e => exact only_error (h2 e hl)
      | ok cs => exact only_ok _

theorem only_mono {β : Type} {S T : Err → Prop} {r : Except Err β} (h : Only S r) (hST : ∀ e, S e → T e) : Only T r :=
  fun e he => hST e (h e he)

theorem vErr (m : String) : IsValueError (.valueError m) := ⟨m, rfl⟩

theorem only_reshape {β : Type} (a : NDArray β) (s : List Nat) : Only IsValueError (a.reshape s) := by
  unfold NDArray.reshape
  split
  · exact only_ok _
  · exact only_error (vErr _)

theorem only_stack {β : Type} (l : List (NDArray β)) : Only IsValueError (NDArray.stack l) := by
  unfold NDArray.stack
  split
  · exact only_ok _
  · split
    · exact only_ok _
    · exact only_error (vErr _)

theorem only_requireValid {S : Err → Prop} {r : Except Err (Bool × String)} (h : Only S r) (hS : ∀ e, IsValueError e → S e) :
    Only S (requireValid r) := by
  refine only_bind h fun b _ => ?_
  obtain ⟨valid, msg⟩ := b
  dsimp only
  split
  · exact only_error (hS _ (vErr _))
  · exact only_ok _

theorem only_checkFlat {β : Type} (x : NDArray β) (n : Nat) : Only IsValueError (checkFlat x n) := by
  simp only [checkFlat, bind, Except.bind, throw, throwThe, MonadExceptOf.throw, pure, Except.pure]
  split
  · exact only_error (vErr _)
  · split
    · exact only_error (vErr _)
    · exact only_ok _

theorem only_simplexValidate (k : Nat) (s : List Nat) (dv : Bool) (a : NDArray α) (vv : Option Bool) :
    Only IsValueError (Simplex.validate k s dv a vv) := by
  simp only [Simplex.validate]
  split
  · exact only_error (vErr _)
  · split
    · split
      · exact only_ok _
      · split <;> exact only_ok _
    · exact only_ok _

theorem only_psdValidate (n : Nat) (lb : Flt) (dv : Bool) (a : NDArray α) (vv : Option Bool) :
    Only IsValueError (PSD.validate n lb dv a vv) := by
  simp only [PSD.validate]
  split
  · exact only_error (vErr _)
  · split
    · split
      · exact only_ok _
      · split <;> exact only_ok _
    · exact only_ok _

omit [Elem α] in
theorem kinds_arr {p : Pattern} (h : p.isDict = false) (a : NDArray α) : Kinds p (.arr a) := by
  cases p <;> simp_all [isDict, Kinds]

omit [Elem α] in
theorem only_validateItems {f : NDArray α → Except Err (Bool × String)} (hf : ∀ a, Only IsValueError (f a)) {a : NDArray α}
    {s rest : List Nat} (ha : a.shape = s ++ rest) {l : List (List Nat)} (hl : ∀ i ∈ l, i ∈ productRanges s) :
    Only IsValueError (validateItems f a l) := by
  induction l with
  | nil => exact only_ok _
  | cons i l ih =>
    rw [validateItems, getItem_eq ha (hl i (.head _))]
    refine only_bind (only_ok _) fun b _ => only_bind (hf _) fun b _ => ?_
    obtain ⟨valid, msg⟩ := b
    dsimp only
    split
    · exact only_ok _
    · exact ih fun j hj => hl j (.tail _ hj)

theorem only_validate (vv : Option Bool) (p : Pattern) : p.WF → ∀ v : Val α, Kinds p v → Only IsValueError (p.validate v vv) := by
  induction p using Pattern.ind (Q := fun es => WFEs es → ∀ vs : List (String × Val α), KindsEs es vs →
    Only IsValueError (validateEs es vs vv)) with
  | hnum c s lb ub dv fd =>
    intro _ v hk
    cases v with
    | dict vs => simp [Kinds] at hk
    | arr a => exact only_ok _
  | hsim k s dv fd =>
    intro _ v hk
    cases v with
    | dict vs => simp [Kinds] at hk
    | arr a => exact only_simplexValidate _ _ _ _ _
  | hpsd n lb dv fd =>
    intro _ v hk
    cases v with
    | dict vs => simp [Kinds] at hk
    | arr a => exact only_psdValidate _ _ _ _ _
  | harr s b fd ih =>
    intro hw v hk
    simp only [Pattern.WF] at hw
    cases v with
    | dict vs => simp [Kinds] at hk
    | arr a =>
      simp only [Pattern.validate, Val.asArr, bind, Except.bind, pure, Except.pure]
      split
      · exact only_ok _
      · split
        · exact only_ok _
        · rename_i h
          exact only_validateItems (fun a => ih hw.2.2 _ (kinds_arr hw.2.1 a)) (not_not.mp h) fun i hi => hi
  | hdict es l fd ih =>
    intro hw v hk
    simp only [Pattern.WF] at hw
    cases v with
    | arr a => simp [Kinds] at hk
    | dict vs => exact ih hw.2 vs (by simpa [Kinds] using hk)
  | hnil _ vs _ => exact only_ok _
  | hcons k p r ihp ihr hw vs hk =>
    simp only [WFEs] at hw
    simp only [KindsEs] at hk
    rw [validateEs]
    cases hl : vs.lookup k with
    | none => exact only_ok _
    | some v =>
      refine only_bind (ihp hw.1 v (hk.1 v hl)) fun b _ => ?_
      obtain ⟨valid, msg⟩ := b
      dsimp only
      split
      · exact only_ok _
      · exact ihr hw.2.2 vs hk.2

/-- The exceptions of `fold`. -/
def FoldErr (p : Pattern) {β : Type} (x : NDArray β) (e : Err) : Prop :=
  IsValueError e ∨ e = .typeError ∧ x.shape = [] ∧ ∃ k s dv fd, p = .simplex k s dv fd

omit [Elem α] in
theorem foldErr_vec {p : Pattern} {l : List α} {r : Except Err (Val α)} (h : Only (FoldErr p (vec l)) r) : Only IsValueError r := by
  intro e he
  rcases h e he with h | ⟨-, h, -⟩
  · exact h
  · simp [vec] at h

theorem only_foldItems {β : Type} {f : NDArray β → Except Err (Val β)} (hf : ∀ l, Only IsValueError (f (vec l)))
    (hd : ∀ x v, f x = .ok v → ∃ a, v = .arr a) (x : NDArray β) (s t : List Nat) (n : Nat) :
    Only IsValueError (foldItems f x s t n) := by
  refine only_bind (only_mapE fun i _ => only_bind (hf _) fun v hv => ?_) fun ps _ => only_bind (only_stack ps) fun a _ => only_reshape _ _
  obtain ⟨a, rfl⟩ := hd _ _ hv
  exact only_ok _

/-! ### `fold` -/

theorem only_numericFoldNF (s : List Nat) (lb ub : Flt) (dv : Bool) (x : NDArray α) (vv : Option Bool) :
    Only IsValueError (Numeric.foldNF s lb ub dv x vv) := by
  simp only [Numeric.foldNF, throw, throwThe, MonadExceptOf.throw, pure, Except.pure]
  split
  · exact only_error (vErr _)
  · split
    · exact only_error (vErr _)
    · refine only_bind (only_reshape _ _) fun a _ => ?_
      split
      · exact only_error (vErr _)
      · exact only_ok _

theorem only_psdFoldNF (n : Nat) (lb : Flt) (dv : Bool) (x : NDArray α) (vv : Option Bool) :
    Only IsValueError (PSD.foldNF n lb dv x vv) := by
  simp only [PSD.foldNF, throw, throwThe, MonadExceptOf.throw, pure, Except.pure]
  split
  · exact only_error (vErr _)
  · split
    · exact only_error (vErr _)
    · refine only_bind (only_reshape _ _) fun a _ => only_bind (only_psdValidate _ _ _ _ _) fun b _ => ?_
      split
      · exact only_error (vErr _)
      · exact only_ok _

theorem only_len {β : Type} (x : NDArray β) : Only (fun e => e = .typeError ∧ x.shape = []) x.len := by
  unfold NDArray.len
  split
  · rename_i h; exact only_error ⟨rfl, h⟩
  · exact only_ok _

theorem only_simplexFoldNF (k : Nat) (s : List Nat) (dv : Bool) (x : NDArray α) (vv : Option Bool) (fd : Option Bool) :
    Only (FoldErr (.simplex k s dv fd) x) (Simplex.foldNF k s dv x vv) := by
  refine only_bind (only_mono (only_len x) fun e h => .inr ⟨h.1, h.2, k, s, dv, fd, rfl⟩) fun n _ => ?_
  simp only [throw, throwThe, MonadExceptOf.throw, pure, Except.pure]
  split
  · exact only_error (.inl (vErr _))
  · refine only_mono (S := IsValueError) (only_bind (only_reshape _ _) fun a _ => only_bind (only_simplexValidate _ _ _ _ _) fun b _ => ?_)
      fun e h => .inl h
    split
    · exact only_error (vErr _)
    · exact only_ok _

omit [Elem α] in
theorem kindsEs_cons {k : String} {v : Val α} {vs : List (String × Val α)} : ∀ {es : Entries}, k ∉ es.keys → KindsEs es vs →
    KindsEs es ((k, v) :: vs)
  | .nil, _, _ => by simp [KindsEs]
  | .cons k' p r, h, hk => by
    simp only [Entries.keys, Entries.toList, List.map_cons, List.mem_cons, not_or] at h
    simp only [KindsEs] at hk ⊢
    refine ⟨fun w hw => hk.1 w ?_, kindsEs_cons h.2 hk.2⟩
    rwa [List.lookup_cons, beq_false_of_ne (Ne.symm h.1)] at hw

theorem kinds_foldNF (vv : Option Bool) (p : Pattern) : p.WF → ∀ (x : NDArray α) v, p.foldNF x vv = .ok v → Kinds p v := by
  induction p using Pattern.ind (Q := fun es => WFEs es → es.keys.Nodup → ∀ (x : NDArray α) o vs, foldNFEs es x vv o = .ok vs →
    KindsEs es vs) with
  | hnum c s lb ub dv fd => intro _ x v h; obtain ⟨a, rfl⟩ := Keys.foldNF_arr rfl h; simp [Kinds]
  | hsim k s dv fd => intro _ x v h; obtain ⟨a, rfl⟩ := Keys.foldNF_arr rfl h; simp [Kinds]
  | hpsd n lb dv fd => intro _ x v h; obtain ⟨a, rfl⟩ := Keys.foldNF_arr rfl h; simp [Kinds]
  | harr s b fd ih => intro _ x v h; obtain ⟨a, rfl⟩ := Keys.foldNF_arr rfl h; simp [Kinds]
  | hdict es l fd ih =>
    intro hw x v h
    simp only [Pattern.WF] at hw
    rw [foldNF] at h
    obtain ⟨y, _, h⟩ := bind_ok h
    obtain ⟨vs, hvs, h⟩ := bind_ok h
    obtain ⟨_, _, h⟩ := bind_ok h
    obtain rfl := Except.ok.inj h
    simpa [Kinds] using ih hw.2 hw.1 y 0 vs hvs
  | hnil _ _ x o vs h => simp [KindsEs]
  | hcons k p r ihp ihr hw hn x o vs h =>
    simp only [WFEs] at hw
    simp only [Entries.keys, Entries.toList, List.map_cons, List.nodup_cons] at hn
    rw [foldNFEs] at h
    obtain ⟨v, hv, h⟩ := bind_ok h
    obtain ⟨ws, hws, h⟩ := bind_ok h
    obtain rfl := Except.ok.inj h
    simp only [KindsEs]
    refine ⟨fun w hw' => ?_, kindsEs_cons hn.1 (ihr hw.2.2 hn.2 x _ ws hws)⟩
    rw [List.lookup_cons, beq_self_eq_true] at hw'
    obtain rfl := Option.some.inj hw'
    exact ihp hw.1 _ _ hv

theorem kinds_foldNFEs (vv : Option Bool) {x : NDArray α} : ∀ {es : Entries} {o : Nat} {vs : List (String × Val α)}, WFEs es →
    es.keys.Nodup → foldNFEs es x vv o = .ok vs → KindsEs es vs
  | .nil, _, _, _, _, _ => by simp [KindsEs]
  | .cons k p r, o, vs, hw, hn, h => by
    simp only [WFEs] at hw
    simp only [Entries.keys, Entries.toList, List.map_cons, List.nodup_cons] at hn
    rw [foldNFEs] at h
    obtain ⟨v, hv, h⟩ := bind_ok h
    obtain ⟨ws, hws, h⟩ := bind_ok h
    obtain rfl := Except.ok.inj h
    simp only [KindsEs]
    refine ⟨fun w hw' => ?_, kindsEs_cons hn.1 (kinds_foldNFEs vv hw.2.2 hn.2 hws)⟩
    rw [List.lookup_cons, beq_self_eq_true] at hw'
    obtain rfl := Option.some.inj hw'
    exact kinds_foldNF vv p hw.1 _ _ hv

theorem only_foldNF (vv : Option Bool) (p : Pattern) : p.WF → ∀ x : NDArray α, Only (FoldErr p x) (p.foldNF x vv) := by
  induction p using Pattern.ind (Q := fun es => WFEs es → ∀ (x : NDArray α) o, Only IsValueError (foldNFEs es x vv o)) with
  | hnum c s lb ub dv fd =>
    intro _ x
    exact only_mono (only_bind (only_numericFoldNF _ _ _ _ _ _) fun a _ => only_ok _) fun e h => .inl h
  | hsim k s dv fd =>
    intro _ x
    exact only_bind (only_simplexFoldNF _ _ _ _ _ fd) fun a _ => only_ok _
  | hpsd n lb dv fd =>
    intro _ x
    exact only_mono (only_bind (only_psdFoldNF _ _ _ _ _) fun a _ => only_ok _) fun e h => .inl h
  | harr s b fd ih =>
    intro hw x
    have hw' := hw
    simp only [Pattern.WF] at hw
    refine only_mono (S := IsValueError) ?_ fun e h => .inl h
    rw [foldNF]
    refine only_bind (only_checkFlat _ _) fun y _ => only_bind (only_foldItems (fun l => foldErr_vec (ih hw.2.2 (vec l)))
      (fun x v hv => Keys.foldNF_arr hw.2.1 hv) _ _ _ _) fun a _ => only_bind (only_requireValid (only_validate vv _ hw' _ (by simp [Kinds]))
        fun e h => h) fun _ _ => only_ok _
  | hdict es l fd ih =>
    intro hw x
    have hw' := hw
    simp only [Pattern.WF] at hw
    refine only_mono (S := IsValueError) ?_ fun e h => .inl h
    rw [foldNF]
    refine only_bind (only_checkFlat _ _) fun y hy => only_bind (ih hw.2 y 0) fun vs hvs => only_bind (only_requireValid
      (only_validate vv _ hw' _ ?_) fun e h => h) fun _ _ => only_ok _
    exact (by simpa [Kinds] using kinds_foldNFEs vv hw.2 hw.1 hvs)
  | hnil _ x o => exact only_ok _
  | hcons k p r ihp ihr hw x o =>
    simp only [WFEs] at hw
    rw [foldNFEs]
    exact only_bind (foldErr_vec (ihp hw.1 (x.slice o (p.flatLen false)))) fun v _ => only_bind (ihr hw.2.2 x _) fun vs _ => only_ok _

theorem only_foldFree (p : Pattern) : p.WF → ∀ x : NDArray Flt, Only (FoldErr p x) (p.foldFree x) := by
  induction p using Pattern.ind (Q := fun es => WFEs es → ∀ (x : NDArray Flt) o, Only IsValueError (foldFreeEs es x o)) with
  | hnum c s lb ub dv fd =>
    intro _ x
    refine only_mono (S := IsValueError) (only_bind ?_ fun a _ => only_ok _) fun e h => .inl h
    simp only [Numeric.foldFree, throw, throwThe, MonadExceptOf.throw]
    split
    · exact only_error (vErr _)
    · split
      · exact only_error (vErr _)
      · exact only_reshape _ _
  | hsim k s dv fd =>
    intro _ x
    refine only_bind (only_bind (only_mono (only_len x) fun e h => .inr ⟨h.1, h.2, k, s, dv, fd, rfl⟩) fun n _ => ?_) fun a _ => only_ok _
    simp only [throw, throwThe, MonadExceptOf.throw, pure, Except.pure]
    split
    · exact only_error (.inl (vErr _))
    · exact only_mono (S := IsValueError) (only_bind (only_reshape _ _) fun a _ => only_ok _) fun e h => .inl h
  | hpsd n lb dv fd =>
    intro _ x
    refine only_mono (S := IsValueError) (only_bind ?_ fun a _ => only_ok _) fun e h => .inl h
    simp only [PSD.foldFree, throw, throwThe, MonadExceptOf.throw]
    split
    · exact only_error (vErr _)
    · split
      · exact only_error (vErr _)
      · refine only_bind ?_ fun a _ => only_ok _
        unfold unvectorizeLd
        dsimp only
        split
        · exact only_error (vErr _)
        · exact only_ok _
  | harr s b fd ih =>
    intro hw x
    simp only [Pattern.WF] at hw
    refine only_mono (S := IsValueError) ?_ fun e h => .inl h
    rw [foldFree]
    exact only_bind (only_checkFlat _ _) fun y _ => only_bind (only_foldItems (fun l => foldErr_vec (ih hw.2.2 (vec l)))
      (fun x v hv => Keys.foldFree_arr hw.2.1 hv) _ _ _ _) fun a _ => only_ok _
  | hdict es l fd ih =>
    intro hw x
    simp only [Pattern.WF] at hw
    refine only_mono (S := IsValueError) ?_ fun e h => .inl h
    rw [foldFree]
    exact only_bind (only_checkFlat _ _) fun y hy => only_bind (ih hw.2 y 0) fun vs hvs => only_ok _
  | hnil _ x o => exact only_ok _
  | hcons k p r ihp ihr hw x o =>
    simp only [WFEs] at hw
    rw [foldFreeEs]
    exact only_bind (foldErr_vec (ihp hw.1 (x.slice o (p.flatLen true)))) fun v _ => only_bind (ihr hw.2.2 x _) fun vs _ => only_ok _

/-! ### `flatten` -/

theorem only_hstack {β : Type} {S : Err → Prop} {l : List (NDArray β)} (h : l ≠ []) : Only S (NDArray.hstack l) := by
  cases l with
  | nil => exact absurd rfl h
  | cons a l => exact only_ok _

theorem validArray_shape {s : List Nat} {b : Pattern} {fd : Option Bool} {a : NDArray α} {vv : Option Bool} {u : Unit}
    (h : requireValid ((Pattern.array s b fd).validate (.arr a) vv) = .ok u) : a.shape = s ++ b.shape := by
  by_contra hne
  obtain ⟨⟨valid, msg⟩, hx, h⟩ := bind_ok h
  have hv : valid = false := by
    simp only [Pattern.validate, Val.asArr, bind, Except.bind, pure, Except.pure] at hx
    split at hx
    · cases hx; rfl
    · cases hx; rfl
  subst hv
  cases h

theorem validDict_lookup {vv : Option Bool} {vs : List (String × Val α)} : ∀ {es : Entries} {m : String}, validateEs es vs vv = .ok (true, m) →
    ∀ k ∈ es.keys, vs.lookup k ≠ none
  | .nil, _, _, k, hk => by simp [Entries.keys, Entries.toList] at hk
  | .cons k p r, m, h, k', hk => by
    rw [validateEs] at h
    cases hl : vs.lookup k with
    | none => rw [hl] at h; simp at h
    | some v =>
      rw [hl] at h
      obtain ⟨⟨valid, msg⟩, _, h⟩ := bind_ok h
      simp only [Entries.keys, Entries.toList, List.map_cons, List.mem_cons] at hk
      rcases hk with rfl | hk
      · simp [hl]
      · dsimp only at h
        split at h
        · cases h
        · exact validDict_lookup h k' hk

theorem valid_true {r : Except Err (Bool × String)} {u : Unit} (h : requireValid r = .ok u) : ∃ m, r = .ok (true, m) := by
  obtain ⟨⟨valid, msg⟩, hx, h⟩ := bind_ok h
  cases valid with
  | true => exact ⟨msg, hx⟩
  | false => cases h

theorem mapE_ne_nil {β γ : Type} {f : β → Except Err γ} {l : List β} {r : List γ} (h : mapE f l = .ok r) (hl : l ≠ []) : r ≠ [] := by
  cases l with
  | nil => exact absurd rfl hl
  | cons b l =>
    unfold mapE at h
    split at h
    · cases h
    · split at h
      · cases h
      · obtain rfl := Except.ok.inj h
        simp

theorem productRanges_ne_nil {s : List Nat} (h : 0 < s.prod) : productRanges s ≠ [] := by
  intro e
  have := congrArg List.length (map_ravel_productRanges s)
  rw [e] at this
  simp at this
  omega

omit [Elem α] in
theorem only_flattenItems {S : Err → Prop} {f : Val α → Except Err (NDArray α)} (hf : ∀ a, Only S (f (.arr a))) {a : NDArray α}
    {s rest : List Nat} (ha : a.shape = s ++ rest) (hs : 0 < s.prod) : Only S (flattenItems f a s) := by
  refine only_bind (only_mapE fun i hi => ?_) fun ps hps => only_hstack (mapE_ne_nil hps (productRanges_ne_nil hs))
  rw [getItem_eq ha hi]
  exact only_bind (only_ok _) fun b _ => hf _

theorem flattenNFEs_ne {vv : Option Bool} {es : Entries} {vs : List (String × Val α)} {ps : List (NDArray α)} (hes : es ≠ .nil)
    (h : flattenNFEs es vs vv = .ok ps) : ps ≠ [] := by
  cases es with
  | nil => exact absurd rfl hes
  | cons k p r =>
    rw [flattenNFEs] at h
    split at h
    · cases h
    · obtain ⟨_, _, h⟩ := bind_ok h
      obtain ⟨_, _, h⟩ := bind_ok h
      obtain rfl := Except.ok.inj h
      simp

theorem flattenFreeEs_ne {vv : Option Bool} {es : Entries} {vs : List (String × Val Flt)} {ps : List (NDArray Flt)} (hes : es ≠ .nil)
    (h : flattenFreeEs es vs vv = .ok ps) : ps ≠ [] := by
  cases es with
  | nil => exact absurd rfl hes
  | cons k p r =>
    rw [flattenFreeEs] at h
    split at h
    · cases h
    · obtain ⟨_, _, h⟩ := bind_ok h
      obtain ⟨_, _, h⟩ := bind_ok h
      obtain rfl := Except.ok.inj h
      simp

theorem only_flattenNF (vv : Option Bool) (p : Pattern) : p.WF → p.NoEmpty → ∀ v : Val α, Kinds p v → Only IsValueError (p.flattenNF v vv) := by
  induction p using Pattern.ind (Q := fun es => WFEs es → NoEmptyEs es → ∀ vs : List (String × Val α), KindsEs es vs →
    (∀ k ∈ es.keys, vs.lookup k ≠ none) → Only IsValueError (flattenNFEs es vs vv)) with
  | hnum c s lb ub dv fd =>
    intro _ _ v hk
    cases v with
    | dict vs => simp [Kinds] at hk
    | arr a =>
      refine only_bind (only_ok _) fun b _ => ?_
      simp only [Numeric.flattenNF, throw, throwThe, MonadExceptOf.throw, bind, Except.bind]
      split
      · exact only_error (vErr _)
      · exact only_ok _
  | hsim k s dv fd =>
    intro _ _ v hk
    cases v with
    | dict vs => simp [Kinds] at hk
    | arr a =>
      refine only_bind (only_ok _) fun b _ => only_bind (only_simplexValidate _ _ _ _ _) fun c _ => ?_
      simp only [throw, throwThe, MonadExceptOf.throw, pure, Except.pure]
      split
      · exact only_error (vErr _)
      · exact only_ok _
  | hpsd n lb dv fd =>
    intro _ _ v hk
    cases v with
    | dict vs => simp [Kinds] at hk
    | arr a =>
      refine only_bind (only_ok _) fun b _ => only_bind (only_psdValidate _ _ _ _ _) fun c _ => ?_
      simp only [throw, throwThe, MonadExceptOf.throw, pure, Except.pure]
      split
      · exact only_error (vErr _)
      · exact only_ok _
  | harr s b fd ih =>
    intro hw hn v hk
    have h1 := only_validate vv _ hw v hk
    simp only [Pattern.WF] at hw
    simp only [NoEmpty] at hn
    cases v with
    | dict vs => simp [Kinds] at hk
    | arr a =>
      rw [flattenNF]
      refine only_bind (only_requireValid h1 fun e h => h) fun u hu => only_bind (only_ok _) fun a' ha' => ?_
      obtain rfl : a = a' := Except.ok.inj ha'
      exact only_flattenItems (fun a => ih hw.2.2 hn.2 _ (kinds_arr hw.2.1 a)) (validArray_shape hu) hn.1
  | hdict es l fd ih =>
    intro hw hn v hk
    have h1 := only_validate vv _ hw v hk
    simp only [Pattern.WF] at hw
    simp only [NoEmpty] at hn
    cases v with
    | arr a => simp [Kinds] at hk
    | dict vs =>
      rw [flattenNF]
      refine only_bind (only_requireValid h1 fun e h => h) fun u hu => only_bind (only_ok _) fun vs' hvs' => ?_
      obtain rfl : vs = vs' := Except.ok.inj hvs'
      obtain ⟨m, hm⟩ := valid_true hu
      refine only_bind (ih hw.2 hn.2 vs (by simpa [Kinds] using hk) (validDict_lookup hm)) fun ps hps => only_hstack ?_
      exact flattenNFEs_ne hn.1 hps
  | hnil _ _ vs _ _ => exact only_ok _
  | hcons k p r ihp ihr hw hn vs hk hl =>
    simp only [WFEs] at hw
    simp only [NoEmptyEs] at hn
    simp only [KindsEs] at hk
    simp only [Entries.keys, Entries.toList, List.map_cons, List.mem_cons, forall_eq_or_imp] at hl
    rw [flattenNFEs]
    cases hv : vs.lookup k with
    | none => exact absurd hv hl.1
    | some v => exact only_bind (ihp hw.1 hn.1 v (hk.1 v hv)) fun x _ => only_bind (ihr hw.2.2 hn.2 vs hk.2 hl.2) fun xs _ => only_ok _

/-- The exceptions of `flatten` with `free=True`. -/
def FreeErr (h : Prop) (e : Err) : Prop := IsValueError e ∨ (e = .linAlgError ∨ e = .unmodelled) ∧ h

theorem only_packPosdef {h : Prop} (hh : h) (n : Nat) (lb : Flt) (a : NDArray Flt) : Only (FreeErr h) (packPosdef n lb a) := by
  refine only_bind ?_ fun c _ => ?_
  · unfold cholesky
    split
    · split
      · exact only_ok _
      · exact only_error (.inr ⟨.inl rfl, hh⟩)
    · exact only_error (.inr ⟨.inr rfl, hh⟩)
  · unfold vectorizeLd
    split
    · split
      · exact only_error (.inl (vErr _))
      · exact only_ok _
    · exact only_error (.inl (vErr _))

theorem only_flattenFree (vv : Option Bool) (p : Pattern) : p.WF → p.NoEmpty → ∀ v : Val Flt, Kinds p v →
    Only (FreeErr (HasPSD p)) (p.flattenFree v vv) := by
  induction p using Pattern.ind (Q := fun es => WFEs es → NoEmptyEs es → ∀ vs : List (String × Val Flt), KindsEs es vs →
    (∀ k ∈ es.keys, vs.lookup k ≠ none) → Only (FreeErr (HasPSDEs es)) (flattenFreeEs es vs vv)) with
  | hnum c s lb ub dv fd =>
    intro _ _ v hk
    cases v with
    | dict vs => simp [Kinds] at hk
    | arr a =>
      refine only_bind (only_ok _) fun b _ => ?_
      simp only [Numeric.flattenFree, throw, throwThe, MonadExceptOf.throw, bind, Except.bind]
      split
      · exact only_error (.inl (vErr _))
      · exact only_ok _
  | hsim k s dv fd =>
    intro _ _ v hk
    cases v with
    | dict vs => simp [Kinds] at hk
    | arr a =>
      refine only_bind (only_ok _) fun b _ => only_bind (only_mono (only_simplexValidate _ _ _ _ _) fun e h => .inl h) fun c _ => ?_
      simp only [throw, throwThe, MonadExceptOf.throw, pure, Except.pure]
      split
      · exact only_error (.inl (vErr _))
      · exact only_ok _
  | hpsd n lb dv fd =>
    intro _ _ v hk
    cases v with
    | dict vs => simp [Kinds] at hk
    | arr a =>
      refine only_bind (only_ok _) fun b _ => only_bind (only_mono (only_psdValidate _ _ _ _ _) fun e h => .inl h) fun c _ => ?_
      simp only [throw, throwThe, MonadExceptOf.throw]
      split
      · exact only_error (.inl (vErr _))
      · exact only_packPosdef (by simp [HasPSD]) _ _ _
  | harr s b fd ih =>
    intro hw hn v hk
    have h1 := only_validate vv _ hw v hk
    simp only [Pattern.WF] at hw
    simp only [NoEmpty] at hn
    cases v with
    | dict vs => simp [Kinds] at hk
    | arr a =>
      rw [flattenFree]
      refine only_bind (only_requireValid (only_mono h1 fun e h => .inl h) fun e h => .inl h) fun u hu => only_bind (only_ok _) fun a' ha' => ?_
      obtain rfl : a = a' := Except.ok.inj ha'
      rw [HasPSD]
      exact only_flattenItems (fun a => ih hw.2.2 hn.2 _ (kinds_arr hw.2.1 a)) (validArray_shape hu) hn.1
  | hdict es l fd ih =>
    intro hw hn v hk
    have h1 := only_validate vv _ hw v hk
    simp only [Pattern.WF] at hw
    simp only [NoEmpty] at hn
    cases v with
    | arr a => simp [Kinds] at hk
    | dict vs =>
      rw [flattenFree]
      refine only_bind (only_requireValid (only_mono h1 fun e h => .inl h) fun e h => .inl h) fun u hu => only_bind (only_ok _) fun vs' hvs' => ?_
      obtain rfl : vs = vs' := Except.ok.inj hvs'
      obtain ⟨m, hm⟩ := valid_true hu
      rw [HasPSD]
      refine only_bind (ih hw.2 hn.2 vs (by simpa [Kinds] using hk) (validDict_lookup hm)) fun ps hps => only_hstack ?_
      exact flattenFreeEs_ne hn.1 hps
  | hnil _ _ vs _ _ => exact only_ok _
  | hcons k p r ihp ihr hw hn vs hk hl =>
    simp only [WFEs] at hw
    simp only [NoEmptyEs] at hn
    simp only [KindsEs] at hk
    simp only [Entries.keys, Entries.toList, List.map_cons, List.mem_cons, forall_eq_or_imp] at hl
    rw [flattenFreeEs, HasPSDEs]
    cases hv : vs.lookup k with
    | none => exact absurd hv hl.1
    | some v =>
      exact only_bind (only_mono (ihp hw.1 hn.1 v (hk.1 v hv)) fun e h => h.imp id fun h => ⟨h.1, .inl h.2⟩) fun x _ => only_bind
        (only_mono (ihr hw.2.2 hn.2 vs hk.2 hl.2) fun e h => h.imp id fun h => ⟨h.1, .inr h.2⟩) fun xs _ => only_ok _

/-! ### `flat_indices` -/

theorem only_flatIndicesItems {f : Val Bool → Except Err (List Nat)} (hf : ∀ a, Only IsValueError (f (.arr a))) {a : NDArray Bool}
    {s rest : List Nat} (ha : a.shape = s ++ rest) (n : Nat) {l : List (List Nat)} (hl : ∀ i ∈ l, i ∈ productRanges s) (o : Nat) :
    Only IsValueError (flatIndicesItems f a n l o) := by
  induction l generalizing o with
  | nil => exact only_ok _
  | cons i l ih =>
    rw [flatIndicesItems, getItem_eq ha (hl i (.head _))]
    refine only_bind (only_ok _) fun b _ => ?_
    dsimp only
    split
    · exact only_bind (hf _) fun c _ => only_bind (ih (fun j hj => hl j (.tail _ hj)) _) fun d _ => only_ok _
    · exact only_bind (only_ok _) fun c _ => only_bind (ih (fun j hj => hl j (.tail _ hj)) _) fun d _ => only_ok _

theorem only_flatIdx (free : Bool) (p : Pattern) : p.WF → ∀ v : Val Bool, Kinds p v → Only IsValueError (p.flatIdx v free) := by
  induction p using Pattern.ind (Q := fun es => WFEs es → ∀ (vs : List (String × Val Bool)) o, KindsEs es vs →
    (∀ k ∈ es.keys, vs.lookup k ≠ none) → Only IsValueError (flatIdxEs es vs free o)) with
  | hnum c s lb ub dv fd =>
    intro _ v hk
    cases v with
    | dict vs => simp [Kinds] at hk
    | arr a =>
      refine only_bind (only_ok _) fun b _ => ?_
      unfold Numeric.flatIndices
      dsimp only
      split
      · exact only_ok _
      · split
        · exact only_error (vErr _)
        · exact only_ok _
  | hsim k s dv fd =>
    intro _ v hk
    cases v with
    | dict vs => simp [Kinds] at hk
    | arr a =>
      refine only_bind (only_ok _) fun b _ => ?_
      unfold Simplex.flatIndices
      dsimp only
      split
      · exact only_ok _
      · split
        · exact only_error (vErr _)
        · split
          · refine only_bind (only_mono (only_simplexFoldNF _ _ _ _ _ fd) fun e h => ?_) fun c _ => only_ok _
            rcases h with h | ⟨_, h, _⟩
            · exact h
            · simp [NDArray.vec] at h
          · exact only_ok _
  | hpsd n lb dv fd =>
    intro _ v hk
    cases v with
    | dict vs => simp [Kinds] at hk
    | arr a =>
      refine only_bind (only_ok _) fun b _ => ?_
      unfold PSD.flatIndices
      dsimp only
      split
      · exact only_ok _
      · split
        · exact only_error (vErr _)
        · split
          · exact only_bind (only_psdFoldNF _ _ _ _ _) fun c _ => only_ok _
          · split <;> exact only_ok _
  | harr s b fd ih =>
    intro hw v hk
    have h1 := only_validate (some false) _ hw v hk
    simp only [Pattern.WF] at hw
    cases v with
    | dict vs => simp [Kinds] at hk
    | arr a =>
      rw [flatIdx]
      refine only_bind (only_requireValid h1 fun e h => h) fun u hu => only_bind (only_ok _) fun a' ha' => ?_
      obtain rfl : a = a' := Except.ok.inj ha'
      exact only_flatIndicesItems (fun a => ih hw.2.2 _ (kinds_arr hw.2.1 a)) (validArray_shape hu) _ (fun i hi => hi) _
  | hdict es l fd ih =>
    intro hw v hk
    have h1 := only_validate (some false) _ hw v hk
    simp only [Pattern.WF] at hw
    cases v with
    | arr a => simp [Kinds] at hk
    | dict vs =>
      rw [flatIdx]
      refine only_bind (only_requireValid h1 fun e h => h) fun u hu => only_bind (only_ok _) fun vs' hvs' => ?_
      obtain rfl : vs = vs' := Except.ok.inj hvs'
      obtain ⟨m, hm⟩ := valid_true hu
      exact ih hw.2 vs 0 (by simpa [Kinds] using hk) (validDict_lookup hm)
  | hnil _ vs _ _ _ => exact only_ok _
  | hcons k p r ihp ihr hw vs o hk hl =>
    simp only [WFEs] at hw
    simp only [KindsEs] at hk
    simp only [Entries.keys, Entries.toList, List.map_cons, List.mem_cons, forall_eq_or_imp] at hl
    rw [flatIdxEs]
    cases hv : vs.lookup k with
    | none => exact absurd hv hl.1
    | some v => exact only_bind (ihp hw.1 v (hk.1 v hv)) fun x _ => only_bind (ihr hw.2.2 vs _ hk.2 hl.2) fun xs _ => only_ok _

theorem only_free (fd free : Option Bool) : Only IsValueError (freeWithDefault fd free) := by
  unfold freeWithDefault
  split
  · exact only_ok _
  · split
    · exact only_ok _
    · exact only_error (vErr _)

end Exceptions

open Exceptions

/-- **C144.** Whatever array `fold` is given, whatever `free` and `validate_value` are, and whichever pattern it is called on, the only
exception it can raise is a `ValueError`; but a `SimplexArrayPattern` that is given a zero-dimensional array may also raise a
`TypeError`. -/
theorem C144_fold (p : Pattern) (hp : Built p) (x : NDArray Flt) (free vv : Option Bool) (e : Err) (h : p.fold x free vv = .error e) :
    (∃ msg, e = .valueError msg) ∨ e = .typeError ∧ x.shape = [] ∧ ∃ k s dv fd, p = .simplex k s dv fd := by
  refine (show Only (FoldErr p x) (p.fold x free vv) from ?_) e h
  refine only_bind (only_mono (only_free _ _) fun e h => .inl h) fun f _ => ?_
  cases f with
  | true => exact only_foldFree p hp.wf x
  | false => exact only_foldNF vv p hp.wf x

/-- **C144.** `validate_folded` of a value of the right kinds (arrays where the pattern wants arrays, dictionaries where it wants
dictionaries, whatever their shapes, entries and keys) can only raise a `ValueError`. -/
theorem C144_validate (p : Pattern) (hp : Built p) (v : Val α) (hv : Spec.Kinds p v) (vv : Option Bool) (e : Err)
    (h : p.validate v vv = .error e) : ∃ msg, e = .valueError msg :=
  only_validate vv p hp.wf v hv e h

/-- **C144.** `flatten` of a value of the right kinds by a pattern without empty containers can only raise a `ValueError`, or, with
`free=True` and a `PSDSymmetricMatrixPattern` in the pattern, what the Cholesky decomposition raises.  (`.unmodelled` is the outcome of a
Cholesky decomposition of a matrix that is not finite, which the model leaves open.) -/
theorem C144_flatten (p : Pattern) (hp : Built p) (hne : p.NoEmpty) (v : Val Flt) (hv : Spec.Kinds p v) (free vv : Option Bool) (e : Err)
    (h : p.flatten v free vv = .error e) :
    (∃ msg, e = .valueError msg) ∨
      (e = .linAlgError ∨ e = .unmodelled) ∧ Spec.HasPSD p ∧ (free = some true ∨ free = none ∧ p.freeDefault = some true) := by
  unfold Pattern.flatten at h
  cases hf : freeWithDefault p.freeDefault free with
  | error e' =>
    rw [hf] at h
    obtain rfl : e' = e := by cases h; rfl
    exact .inl (only_free _ _ e' hf)
  | ok f =>
    rw [hf] at h
    cases f with
    | false => exact .inl (only_flattenNF vv p hp.wf hne v hv e h)
    | true =>
      refine (only_flattenFree vv p hp.wf hne v hv e h).imp id fun h => ⟨h.1, h.2, ?_⟩
      cases free with
      | some b => simp_all [freeWithDefault]
      | none =>
        right
        cases hd : p.freeDefault <;> simp_all [freeWithDefault]

/-- **C144.** `flat_indices` of a value of the right kinds can only raise a `ValueError`. -/
theorem C144_indices (p : Pattern) (hp : Built p) (v : Val Bool) (hv : Spec.Kinds p v) (free : Option Bool) (e : Err)
    (h : p.flatIndices v free = .error e) : ∃ msg, e = .valueError msg := by
  refine (show Only IsValueError (p.flatIndices v free) from ?_) e h
  unfold Pattern.flatIndices
  split
  · exact only_bind (only_free _ _) fun f _ => only_flatIdx f _ hp.wf _ hv
  · exact only_bind (only_free _ _) fun f _ => only_flatIdx f _ hp.wf _ hv
  · split
    · exact only_ok _
    · exact only_bind (only_free _ _) fun f _ => only_flatIdx f _ hp.wf _ hv
  · cases p <;> simp_all [Spec.Kinds]

/-- **C144.** The exception to the rule occurs: `fold` of a `SimplexArrayPattern` raises a `TypeError` for every zero-dimensional array,
where the other patterns never do. -/
theorem C144_scalar (k : Nat) (s : List Nat) (dv : Bool) (fd : Option Bool) (x : NDArray Flt) (hx : x.shape = []) (b : Bool)
    (vv : Option Bool) : (Pattern.simplex k s dv fd).fold x (some b) vv = .error .typeError := by
  have hl : x.len = .error .typeError := by unfold NDArray.len; rw [hx]
  cases b
  · simp [Pattern.fold, freeWithDefault, Pattern.foldNF, Simplex.foldNF, hl, bind, Except.bind]
  · simp [Pattern.fold, freeWithDefault, Pattern.foldFree, Simplex.foldFree, hl, bind, Except.bind]

/-- Not vacuous: a dictionary with a simplex and a matrix in it, and a value of the right kinds whose shapes are wrong and in which a key
is missing, for which `flatten` raises. -/
example :
    let p : Pattern := .dict (.cons "s" (.simplex 3 [2] true none) (.cons "m" (.psd 2 (.int 0) true none) .nil)) false none
    Built p ∧ p.NoEmpty ∧ Spec.HasPSD p ∧ Spec.Kinds p (.dict [("m", .arr ⟨[1], [Flt.fin 1]⟩)]) ∧
      (∃ e, p.flatten (.dict [("m", .arr ⟨[1], [Flt.fin 1]⟩)]) (some true) none = .error e) ∧
      (∃ e, p.fold ⟨[], [Flt.fin 1]⟩ (some false) none = .error e) := by
  refine ⟨WF.built _ ?_, ?_, ?_, ?_, ⟨.valueError "s not in folded_val dictionary.", ?_⟩, ⟨.valueError "Wrong size.", ?_⟩⟩
  · simp [Pattern.WF, WFEs, Entries.keys, Entries.toList, Pattern.lock, PyNum.toFlt]
  · simp [Pattern.NoEmpty, NoEmptyEs]
  · simp [Spec.HasPSD, Spec.HasPSDEs]
  · rw [Spec.Kinds, Spec.KindsEs, Spec.KindsEs, Spec.KindsEs]
    refine ⟨fun v h => by simp [List.lookup] at h, fun v h => ?_, trivial⟩
    simp only [List.lookup, beq_self_eq_true, Option.some.injEq] at h
    subst h
    exact kinds_arr rfl _
  · simp [Pattern.flatten, freeWithDefault, Pattern.flattenFree, requireValid, Pattern.validate, validateEs, Val.asDict, List.lookup,
      bind, Except.bind, throw, throwThe, MonadExceptOf.throw]
  · simp [Pattern.fold, freeWithDefault, Pattern.foldNF, checkFlat, NDArray.atleast1d, NDArray.ndim, NDArray.size, flatLenEs, Pattern.flatLen,
      bind, Except.bind, throw, throwThe, MonadExceptOf.throw]

end Paragami
