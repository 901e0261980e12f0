import Verif.Props.Exceptions
import Verif.Proofs.FreeTrip
import Verif.Proofs.User
/-!
# C145: validation decides whether there is a result, never which
-/
namespace Paragami
open Pattern NDArray Spec

namespace Validating
variable {α : Type} [Elem α]

theorem acc_mono {vv vv' : Option Bool} (hle : ∀ dv, vv'.getD dv = true → vv.getD dv = true) (p : Pattern) : ∀ v : Val α, Acc p v vv →
    Acc p v vv' := by
  induction p using Pattern.ind (Q := fun es => ∀ vs : List (String × Val α), AccEs es vs vv → AccEs es vs vv') with
  | hnum c s lb ub dv fd =>
    intro v h
    rw [acc_numeric] at h ⊢
    obtain ⟨a, rfl, h1, h2⟩ := h
    exact ⟨a, rfl, h1, fun h => h2 (hle _ h)⟩
  | hsim k s dv fd =>
    intro v h
    rw [acc_simplex] at h ⊢
    obtain ⟨a, rfl, h1, h2⟩ := h
    exact ⟨a, rfl, h1, fun h => h2 (hle _ h)⟩
  | hpsd n lb dv fd =>
    intro v h
    rw [acc_psd] at h ⊢
    obtain ⟨a, rfl, h1, h2⟩ := h
    exact ⟨a, rfl, h1, fun h => h2 (hle _ h)⟩
  | harr s b fd ih =>
    intro v h
    rw [acc_array] at h ⊢
    obtain ⟨a, rfl, h1, h2⟩ := h
    exact ⟨a, rfl, h1, fun i hi => ih _ (h2 i hi)⟩
  | hdict es l fd ih =>
    intro v h
    rw [acc_dict] at h ⊢
    obtain ⟨vs, rfl, h⟩ := h
    exact ⟨vs, rfl, ih vs h⟩
  | hnil vs h => exact h
  | hcons k p r ihp ihr vs h =>
    obtain ⟨⟨v, hv, h1⟩, h2⟩ := h
    exact ⟨⟨v, hv, ihp v h1⟩, ihr vs h2⟩

theorem requireValid_acc {p : Pattern} {v : Val α} {vv : Option Bool} (h : Acc p v vv) : requireValid (p.validate v vv) = .ok () := by
  obtain ⟨m, h⟩ := h
  rw [requireValid, h]
  rfl

theorem acc_requireValid {p : Pattern} {v : Val α} {vv : Option Bool} {u : Unit} (h : requireValid (p.validate v vv) = .ok u) : Acc p v vv :=
  Exceptions.valid_true h

theorem atleast1d_idem {β : Type} (a : NDArray β) : a.atleast1d.atleast1d = a.atleast1d :=
  atleast1d_of_ne (atleast1d_shape_ne_nil a)

theorem mapE_congr {β γ : Type} {f g : β → Except Err γ} {l : List β} (h : ∀ b ∈ l, f b = g b) : mapE f l = mapE g l := by
  induction l with
  | nil => rfl
  | cons b l ih =>
    unfold mapE
    rw [h b (.head _), ih fun c hc => h c (.tail _ hc)]

omit [Elem α] in
theorem flattenItems_congr {f g : Val α → Except Err (NDArray α)} {a : NDArray α} {s rest : List Nat} (ha : a.shape = s ++ rest)
    (h : ∀ i < s.prod, f (.arr ⟨rest, chunk rest.prod a.data i⟩) = g (.arr ⟨rest, chunk rest.prod a.data i⟩)) :
    flattenItems f a s = flattenItems g a s := by
  unfold flattenItems
  rw [mapE_congr fun it hit => ?_]
  rw [getItem_eq ha hit]
  refine h _ ?_
  rw [← List.mem_range, ← map_ravel_productRanges]
  exact List.mem_map_of_mem hit

theorem flattenNF_same {vv vv' : Option Bool} (p : Pattern) : ∀ v : Val α, Acc p v vv → Acc p v vv' → p.flattenNF v vv = p.flattenNF v vv' := by
  induction p using Pattern.ind (Q := fun es => ∀ vs : List (String × Val α), AccEs es vs vv → AccEs es vs vv' →
    flattenNFEs es vs vv = flattenNFEs es vs vv') with
  | hnum c s lb ub dv fd =>
    intro v h h'
    obtain ⟨a, rfl, -⟩ := acc_numeric.1 h
    exact (numeric_flattenNF_ok.2 ⟨acc_numeric_arr.1 h, rfl⟩).trans (numeric_flattenNF_ok.2 ⟨acc_numeric_arr.1 h', rfl⟩).symm
  | hsim k s dv fd =>
    intro v h h'
    obtain ⟨a, rfl, -⟩ := acc_simplex.1 h
    exact (simplex_flattenNF_ok.2 ⟨acc_simplex_arr.1 h, rfl⟩).trans (simplex_flattenNF_ok.2 ⟨acc_simplex_arr.1 h', rfl⟩).symm
  | hpsd n lb dv fd =>
    intro v h h'
    obtain ⟨a, rfl, -⟩ := acc_psd.1 h
    exact (psd_flattenNF_ok.2 ⟨acc_psd_arr.1 h, rfl⟩).trans (psd_flattenNF_ok.2 ⟨acc_psd_arr.1 h', rfl⟩).symm
  | harr s b fd ih =>
    intro v h h'
    rw [flattenNF, flattenNF, requireValid_acc h, requireValid_acc h']
    obtain ⟨a, rfl, h1, h2⟩ := acc_array.1 h
    obtain ⟨a', e, _, h2'⟩ := acc_array.1 h'
    obtain rfl : a = a' := by simpa using e
    exact flattenItems_congr (f := fun sub => b.flattenNF sub vv) (g := fun sub => b.flattenNF sub vv') h1 fun i hi => ih _ (h2 i hi) (h2' i hi)
  | hdict es l fd ih =>
    intro v h h'
    rw [flattenNF, flattenNF, requireValid_acc h, requireValid_acc h']
    obtain ⟨vs, rfl, h1⟩ := acc_dict.1 h
    obtain ⟨vs', e, h1'⟩ := acc_dict.1 h'
    obtain rfl : vs = vs' := by simpa using e
    simp only [bind, Except.bind, Val.asDict, ih vs h1 h1']
  | hnil vs h h' => rfl
  | hcons k p r ihp ihr vs h h' =>
    obtain ⟨⟨v, hv, h1⟩, h2⟩ := h
    obtain ⟨⟨v', hv', h1'⟩, h2'⟩ := h'
    obtain rfl : v = v' := by rw [hv] at hv'; exact Option.some.inj hv'
    rw [flattenNFEs, flattenNFEs, hv]
    dsimp only
    rw [ihp v h1 h1', ihr vs h2 h2']

theorem flattenFree_same {vv vv' : Option Bool} (p : Pattern) : ∀ v : Val Flt, Acc p v vv → Acc p v vv' →
    p.flattenFree v vv = p.flattenFree v vv' := by
  induction p using Pattern.ind (Q := fun es => ∀ vs : List (String × Val Flt), AccEs es vs vv → AccEs es vs vv' →
    flattenFreeEs es vs vv = flattenFreeEs es vs vv') with
  | hnum c s lb ub dv fd =>
    intro v h h'
    obtain ⟨a, rfl, -⟩ := acc_numeric.1 h
    have e : ∀ vv, Numeric.validate s lb.toFlt ub.toFlt dv a.atleast1d vv = Numeric.validate s lb.toFlt ub.toFlt dv a vv := fun vv => by
      rw [Numeric.validate, Numeric.validate, Numeric.validateShape, Numeric.validateShape, atleast1d_idem]
    rw [flattenFree, flattenFree]
    simp only [bind, Except.bind, Val.asArr, Numeric.flattenFree, e, acc_numeric_arr.1 h, acc_numeric_arr.1 h']
  | hsim k s dv fd =>
    intro v h h'
    obtain ⟨a, rfl, -⟩ := acc_simplex.1 h
    rw [flattenFree, flattenFree]
    simp only [bind, Except.bind, Val.asArr, Simplex.flattenFree, acc_simplex_arr.1 h, acc_simplex_arr.1 h']
  | hpsd n lb dv fd =>
    intro v h h'
    obtain ⟨a, rfl, -⟩ := acc_psd.1 h
    rw [flattenFree, flattenFree]
    simp only [bind, Except.bind, Val.asArr, PSD.flattenFree, acc_psd_arr.1 h, acc_psd_arr.1 h']
  | harr s b fd ih =>
    intro v h h'
    rw [flattenFree, flattenFree, requireValid_acc h, requireValid_acc h']
    obtain ⟨a, rfl, h1, h2⟩ := acc_array.1 h
    obtain ⟨a', e, _, h2'⟩ := acc_array.1 h'
    obtain rfl : a = a' := by simpa using e
    exact flattenItems_congr (f := fun sub => b.flattenFree sub vv) (g := fun sub => b.flattenFree sub vv') h1 fun i hi => ih _ (h2 i hi) (h2' i hi)
  | hdict es l fd ih =>
    intro v h h'
    rw [flattenFree, flattenFree, requireValid_acc h, requireValid_acc h']
    obtain ⟨vs, rfl, h1⟩ := acc_dict.1 h
    obtain ⟨vs', e, h1'⟩ := acc_dict.1 h'
    obtain rfl : vs = vs' := by simpa using e
    simp only [bind, Except.bind, Val.asDict, ih vs h1 h1']
  | hnil vs h h' => rfl
  | hcons k p r ihp ihr vs h h' =>
    obtain ⟨⟨v, hv, h1⟩, h2⟩ := h
    obtain ⟨⟨v', hv', h1'⟩, h2'⟩ := h'
    obtain rfl : v = v' := by rw [hv] at hv'; exact Option.some.inj hv'
    rw [flattenFreeEs, flattenFreeEs, hv]
    dsimp only
    rw [ihp v h1 h1', ihr vs h2 h2']

theorem acc_flattenNF {p : Pattern} {v : Val α} {vv : Option Bool} {x : NDArray α} (h : p.flattenNF v vv = .ok x) : Acc p v vv := by
  cases p with
  | numeric c s lb ub dv fd =>
    obtain ⟨a, ha, h⟩ := bind_ok h
    obtain rfl := asArr_ok.1 ha
    exact acc_numeric_arr.2 (numeric_flattenNF_ok.1 h).1
  | simplex k s dv fd =>
    obtain ⟨a, ha, h⟩ := bind_ok h
    obtain rfl := asArr_ok.1 ha
    exact acc_simplex_arr.2 (simplex_flattenNF_ok.1 h).1
  | psd n lb dv fd =>
    obtain ⟨a, ha, h⟩ := bind_ok h
    obtain rfl := asArr_ok.1 ha
    exact acc_psd_arr.2 (psd_flattenNF_ok.1 h).1
  | array s b fd =>
    rw [flattenNF] at h
    obtain ⟨u, hu, -⟩ := bind_ok h
    exact acc_requireValid hu
  | dict es l fd =>
    rw [flattenNF] at h
    obtain ⟨u, hu, -⟩ := bind_ok h
    exact acc_requireValid hu

theorem acc_flattenFree {p : Pattern} {v : Val Flt} {vv : Option Bool} {x : NDArray Flt} (h : p.flattenFree v vv = .ok x) : Acc p v vv := by
  cases p with
  | numeric c s lb ub dv fd =>
    rw [flattenFree] at h
    obtain ⟨a, ha, h'⟩ := bind_ok h
    obtain rfl := asArr_ok.1 ha
    clear h
    have e : Numeric.validate s lb.toFlt ub.toFlt dv a.atleast1d vv = Numeric.validate s lb.toFlt ub.toFlt dv a vv := by
      rw [Numeric.validate, Numeric.validate, Numeric.validateShape, Numeric.validateShape, atleast1d_idem]
    simp only [Numeric.flattenFree, e] at h'
    rcases hv : Numeric.validate s lb.toFlt ub.toFlt dv a vv with ⟨b, m⟩
    rw [hv] at h'
    cases b with
    | false => cases h'
    | true => exact ⟨m, by simp [Pattern.validate, Val.asArr, bind, Except.bind, pure, Except.pure, hv]⟩
  | simplex k s dv fd =>
    rw [flattenFree] at h
    obtain ⟨a, ha, h'⟩ := bind_ok h
    obtain rfl := asArr_ok.1 ha
    clear h
    rw [Simplex.flattenFree] at h'
    obtain ⟨⟨b, m⟩, hv, h'⟩ := bind_ok h'
    cases b with
    | false => cases h'
    | true => exact ⟨m, hv⟩
  | psd n lb dv fd =>
    rw [flattenFree] at h
    obtain ⟨a, ha, h'⟩ := bind_ok h
    obtain rfl := asArr_ok.1 ha
    clear h
    rw [PSD.flattenFree] at h'
    obtain ⟨⟨b, m⟩, hv, h'⟩ := bind_ok h'
    cases b with
    | false => cases h'
    | true => exact ⟨m, hv⟩
  | array s b fd =>
    rw [flattenFree] at h
    obtain ⟨u, hu, -⟩ := bind_ok h
    exact acc_requireValid hu
  | dict es l fd =>
    rw [flattenFree] at h
    obtain ⟨u, hu, -⟩ := bind_ok h
    exact acc_requireValid hu

/-- Once the argument has passed the checks of the shape, only its entries matter. -/
theorem foldNF_same {vv vv' : Option Bool} {p : Pattern} (hw : p.WF) {x : NDArray α} {v : Val α} (h : p.foldNF x vv = .ok v) (ha : Acc p v vv') :
    p.foldNF x vv' = .ok v := by
  obtain ⟨hl, rfl, -⟩ := foldNF_ok_imp p hw x vv v h
  cases p with
  | numeric c s lb ub dv fd =>
    obtain ⟨a, h, e⟩ := bind_ok h
    obtain ⟨h1, h2, rfl, -⟩ := numeric_foldNF_ok.1 h
    have e := Except.ok.inj e
    rw [← e] at ha ⊢
    rw [foldNF, numeric_foldNF_ok.2 ⟨h1, h2, rfl, acc_numeric_arr.1 ha⟩]
    rfl
  | simplex k s dv fd =>
    obtain ⟨a, h, e⟩ := bind_ok h
    obtain ⟨h1, h2, rfl, -⟩ := simplex_foldNF_ok.1 h
    have e := Except.ok.inj e
    rw [← e] at ha ⊢
    rw [foldNF, simplex_foldNF_ok.2 ⟨h1, h2, rfl, acc_simplex_arr.1 ha⟩]
    rfl
  | psd n lb dv fd =>
    obtain ⟨a, h, e⟩ := bind_ok h
    obtain ⟨h1, h2, rfl, -⟩ := psd_foldNF_ok.1 h
    have e := Except.ok.inj e
    rw [← e] at ha ⊢
    rw [foldNF, psd_foldNF_ok.2 ⟨h1, h2, rfl, acc_psd_arr.1 ha⟩]
    rfl
  | array s b fd =>
    have h' := foldNF_eq _ hw x.data vv' hl ha
    rw [← h']
    rw [foldNF] at h
    obtain ⟨y, hy, -⟩ := bind_ok h
    obtain ⟨rfl, -, hn⟩ := checkFlat_ok hy
    rw [foldNF, foldNF, hy, checkFlat_vec hn]
    simp only [bind, Except.bind, foldItems, NDArray.slice, NDArray.vec, atleast1d_data]
  | dict es l fd =>
    have h' := foldNF_eq _ hw x.data vv' hl ha
    rw [← h']
    rw [foldNF] at h
    obtain ⟨y, hy, -⟩ := bind_ok h
    obtain ⟨rfl, -, hn⟩ := checkFlat_ok hy
    have hd : ∀ (es : Entries) (y z : NDArray α) (o : Nat), y.data = z.data → foldNFEs es y vv' o = foldNFEs es z vv' o := by
      intro es
      induction es using Entries.rec (motive_1 := fun _ => True) with
      | nil => intro y z o e; rfl
      | cons k p r _ ih =>
        intro y z o e
        rw [foldNFEs, foldNFEs, ih y z _ e]
        simp only [NDArray.slice, e]
      | _ => trivial
    rw [foldNF, foldNF, hy, checkFlat_vec hn]
    simp only [bind, Except.bind]
    rw [hd es x.atleast1d (vec x.data) 0 (atleast1d_data x)]

end Validating
open Validating

/-- **C145.** `flatten` with validation is `flatten` without it for the values that validation accepts, result and exception alike, and
gives no result for the others. -/
theorem C145_flatten (p : Pattern) (v : Val Flt) (free vv : Option Bool) :
    ((∃ m, p.validate v vv = .ok (true, m)) → p.flatten v free vv = p.flatten v free (some false)) ∧
      (¬ (∃ m, p.validate v vv = .ok (true, m)) → ∃ e, p.flatten v free vv = .error e) := by
  constructor
  · intro h
    have h' : Acc p v (some false) := acc_mono (by simp) p v h
    unfold Pattern.flatten
    rw [flattenNF_same p v h h', flattenFree_same p v h h']
  · intro h
    cases hr : p.flatten v free vv with
    | error e => exact ⟨e, rfl⟩
    | ok x =>
      obtain ⟨f, -, hr⟩ := bind_ok hr
      cases f with
      | true => exact absurd (acc_flattenFree hr) h
      | false => exact absurd (acc_flattenNF hr) h

/-- **C145.** A value that `flatten` accepts with `validate_value=True` it flattens to the same vector with every other setting. -/
theorem C145_flatten_result (p : Pattern) (v : Val Flt) (free : Option Bool) (x : NDArray Flt) (h : p.flatten v free (some true) = .ok x)
    (vv : Option Bool) : p.flatten v free vv = .ok x := by
  have ht : Acc p v (some true) := by
    by_contra hn
    obtain ⟨e, he⟩ := (C145_flatten p v free (some true)).2 hn
    rw [h] at he
    cases he
  rw [(C145_flatten p v free vv).1 (acc_mono (by simp) p v ht), ← (C145_flatten p v free (some true)).1 ht, h]

/-- **C145.** `fold` with `free=False` gives a value with validation exactly if it gives this value without validation and validation
accepts it. -/
theorem C145_fold (p : Pattern) (hp : Built p) (x : NDArray Flt) (vv : Option Bool) (v : Val Flt) :
    p.fold x (some false) vv = .ok v ↔ p.fold x (some false) (some false) = .ok v ∧ ∃ m, p.validate v vv = .ok (true, m) := by
  simp only [fold_false]
  constructor
  · intro h
    have ha := (foldNF_ok_imp p hp.wf x vv v h).2.2
    exact ⟨foldNF_same hp.wf h (acc_mono (by simp) p v ha), ha⟩
  · rintro ⟨h, ha⟩
    exact foldNF_same hp.wf h ha

/-- **C145.** What `fold` returns with `validate_value=True` it returns with every other setting, and with `free=True` the setting does not
matter at all. -/
theorem C145_fold_result (p : Pattern) (hp : Built p) (x : NDArray Flt) :
    (∀ v, p.fold x (some false) (some true) = .ok v → ∀ vv, p.fold x (some false) vv = .ok v) ∧
      ∀ vv vv', p.fold x (some true) vv = p.fold x (some true) vv' := by
  refine ⟨fun v h vv => ?_, fun vv vv' => rfl⟩
  obtain ⟨h1, h2⟩ := (C145_fold p hp x (some true) v).1 h
  exact (C145_fold p hp x vv v).2 ⟨h1, acc_mono (by simp) p v h2⟩

/-- **C145.** `validate_folded` accepts less the more it checks. -/
theorem C145_validate {α : Type} [Elem α] (p : Pattern) (v : Val α) (vv : Option Bool) :
    ((∃ m, p.validate v (some true) = .ok (true, m)) → ∃ m, p.validate v vv = .ok (true, m)) ∧
      ((∃ m, p.validate v vv = .ok (true, m)) → ∃ m, p.validate v (some false) = .ok (true, m)) :=
  ⟨fun h => acc_mono (by simp) p v h, fun h => acc_mono (by simp) p v h⟩

/-- Not vacuous: a value beyond the bounds of a pattern inside a dictionary, which is flattened without validation and not with it, and one
between the bounds. -/
example :
    let p : Pattern := .dict (.cons "a" (.numeric .vector [2] (.int 0) (.int 1) true none) .nil) false none
    Built p ∧ p.fold (vec [.fin 1, .fin 2]) (some false) (some false) = .ok (.dict [("a", .arr ⟨[2], [.fin 1, .fin 2]⟩)]) ∧
      (∀ v, p.fold (vec [.fin 1, .fin 2]) (some false) (some true) ≠ .ok v) ∧
      p.fold (vec [.fin 1, .fin 0]) (some false) (some true) = .ok (.dict [("a", .arr ⟨[2], [.fin 1, .fin 0]⟩)]) := by
  have hb : Built (.dict (.cons "a" (.numeric .vector [2] (.int 0) (.int 1) true none) .nil) false none) :=
    WF.built _ (by simp [Pattern.WF, WFEs, Entries.keys, Entries.toList, Pattern.lock, PyNum.toFlt])
  have ha : ∀ (l : List Flt) vv, l.length = 2 → (vv = some true → ∀ x ∈ l, x.lt (.fin 0) = false ∧ x.gt (.fin 1) = false) → vv ≠ none →
      (Pattern.dict (.cons "a" (.numeric .vector [2] (.int 0) (.int 1) true none) .nil) false none).fold (vec l) (some false) vv =
        .ok (.dict [("a", .arr ⟨[2], l⟩)]) := by
    intro l vv hl h hn
    have := foldNF_eq _ hb.wf l vv (by simp [Pattern.flatLen, flatLenEs, hl]) ?_
    · simpa [fold_false, unflat, unflatEs, Pattern.flatLen, Pattern.shape, hl, List.take_of_length_le] using this
    · rw [unflat, acc_dict]
      refine ⟨_, rfl, ⟨_, by rw [unflatEs, List.lookup, beq_self_eq_true], ?_⟩, trivial⟩
      rw [unflat, acc_numeric]
      refine ⟨_, rfl, by simp [NDArray.atleast1d, Pattern.shape], fun hv => ?_⟩
      have hv' : vv = some true := by
        cases vv with
        | none => exact absurd rfl hn
        | some b => simpa using hv
      simpa [Pattern.flatLen, hl, List.take_of_length_le, PyNum.toFlt, Elem.toFlt] using h hv'
  refine ⟨hb, ha _ _ rfl (by simp) (by simp), ?_, ha _ _ rfl (fun _ => ?_) (by simp)⟩
  · intro v h
    obtain ⟨h1, h2⟩ := (C145_fold _ hb _ _ _).1 h
    rw [ha _ _ rfl (by simp) (by simp)] at h1
    obtain rfl := Except.ok.inj h1
    obtain ⟨vs, e, ⟨w, hw, hw'⟩, -⟩ := acc_dict.1 h2
    obtain rfl : _ = vs := Val.dict.inj e
    obtain rfl : Val.arr ⟨[2], [.fin 1, .fin 2]⟩ = w := by simpa [List.lookup] using hw
    obtain ⟨a, e, -, h3⟩ := acc_numeric.1 hw'
    obtain rfl := Val.arr.inj e
    have := (h3 rfl (.fin 2) (by simp)).2
    simp [Elem.toFlt, Flt.gt, Flt.lt, PyNum.toFlt] at this
  · simp [Flt.gt, Flt.lt]

namespace Validating
variable {α : Type} [Elem α]

theorem flattenNF_empty (p : Pattern) (hw : p.WF) : ∀ (v : Val α) (vv), v.WF → Acc p v vv → ¬ p.NoEmpty → p.flattenNF v vv = .error .indexError := by
  revert hw
  induction p using Pattern.ind (Q := fun es => WFEs es → ∀ (vs : List (String × Val α)) vv, Val.WFEs vs → AccEs es vs vv → ¬ NoEmptyEs es →
    flattenNFEs es vs vv = .error .indexError) with
  | hnum c s lb ub dv fd => intro _ v vv _ _ h; exact absurd (by simp [NoEmpty]) h
  | hsim k s dv fd => intro _ v vv _ _ h; exact absurd (by simp [NoEmpty]) h
  | hpsd n lb dv fd => intro _ v vv _ _ h; exact absurd (by simp [NoEmpty]) h
  | harr s b fd ih =>
    intro hw v vv hv h hn
    simp only [Pattern.WF] at hw
    simp only [NoEmpty, not_and] at hn
    rw [flattenNF, requireValid_acc h]
    obtain ⟨a, rfl, h1, h2⟩ := acc_array.1 h
    show flattenItems (fun sub => b.flattenNF sub vv) a s = _
    by_cases hs : 0 < s.prod
    · have hb := hn hs
      cases hp : productRanges s with
      | nil => exact absurd hp (Exceptions.productRanges_ne_nil hs)
      | cons it l =>
        have hit : it ∈ productRanges s := by rw [hp]; exact .head _
        have hi : ravel s it < s.prod := by
          rw [← List.mem_range, ← map_ravel_productRanges]
          exact List.mem_map_of_mem hit
        rw [flattenItems, hp, mapE, getItem_eq h1 hit]
        simp only [bind, Except.bind]
        rw [ih hw.2.2 _ vv (chunk_wf (by simpa [Val.WF] using hv) h1 hi) (h2 _ hi) hb]
    · have hp : productRanges s = [] := by
        have := congrArg List.length (map_ravel_productRanges s)
        simp only [List.length_map, List.length_range] at this
        exact List.length_eq_zero_iff.1 (by omega)
      rw [flattenItems, hp]
      rfl
  | hdict es l fd ih =>
    intro hw v vv hv h hn
    simp only [Pattern.WF] at hw
    simp only [NoEmpty, not_and] at hn
    rw [flattenNF, requireValid_acc h]
    obtain ⟨vs, rfl, h1⟩ := acc_dict.1 h
    simp only [bind, Except.bind, Val.asDict]
    by_cases he : es = .nil
    · subst he
      rfl
    · rw [ih hw.2 vs vv (by simpa [Val.WF] using hv) h1 (hn he)]
  | hnil _ vs vv _ _ h => exact absurd trivial h
  | hcons k p r ihp ihr hw vs vv hv h hn =>
    simp only [WFEs] at hw
    obtain ⟨⟨v, hl, h1⟩, h2⟩ := h
    have hvw := WFEs_lookup hv hl
    simp only [NoEmptyEs, not_and] at hn
    rw [flattenNFEs, hl]
    simp only [bind, Except.bind]
    by_cases hp : p.NoEmpty
    · rw [flattenNF_eq p hw.1 v vv hvw hp h1, ihr hw.2.2 vs vv hv h2 (hn hp)]
    · rw [ihp hw.1 v vv hvw h1 hp]

theorem flattenFree_noEmpty (p : Pattern) : ∀ (v : Val Flt) (vv) (x), p.flattenFree v vv = .ok x → p.NoEmpty := by
  induction p using Pattern.ind (Q := fun es => ∀ (vs : List (String × Val Flt)) vv ps, flattenFreeEs es vs vv = .ok ps → NoEmptyEs es) with
  | hnum c s lb ub dv fd => intro v vv x _; simp [NoEmpty]
  | hsim k s dv fd => intro v vv x _; simp [NoEmpty]
  | hpsd n lb dv fd => intro v vv x _; simp [NoEmpty]
  | harr s b fd ih =>
    intro v vv x h
    have ha := acc_flattenFree h
    obtain ⟨a, rfl, h1, h2⟩ := acc_array.1 ha
    rw [flattenFree, requireValid_acc ha] at h
    obtain ⟨hs, hi⟩ := flattenItems_ok h1 (f := fun sub => b.flattenFree sub vv) h
    obtain ⟨y, hy⟩ := hi 0 hs
    exact ⟨hs, ih _ vv y hy⟩
  | hdict es l fd ih =>
    intro v vv x h
    have ha := acc_flattenFree h
    obtain ⟨vs, rfl, h1⟩ := acc_dict.1 ha
    rw [flattenFree, requireValid_acc ha] at h
    obtain ⟨ps, hps, h⟩ := bind_ok (show (flattenFreeEs es vs vv >>= fun ps => hstack ps) = .ok x from h)
    refine ⟨?_, ih vs vv ps hps⟩
    rintro rfl
    obtain rfl := Except.ok.inj hps
    cases h
  | hnil vs vv ps _ => trivial
  | hcons k p r ihp ihr vs vv ps h =>
    rw [flattenFreeEs] at h
    split at h
    · cases h
    · obtain ⟨x, hx, h⟩ := bind_ok h
      obtain ⟨xs, hxs, -⟩ := bind_ok h
      exact ⟨ihp _ vv x hx, ihr vs vv xs hxs⟩

end Validating

/-- **C144.** A pattern with an empty container somewhere (a `PatternDict` without members or a `PatternArray` with a zero in its shape)
flattens nothing: with `free=False` every value that validation accepts raises `IndexError`, and with `free=True` no value whatever is
flattened. -/
theorem C144_empty (p : Pattern) (hp : Built p) (he : ¬ p.NoEmpty) (v : Val Flt) (vv : Option Bool) :
    (v.WF → (∃ m, p.validate v vv = .ok (true, m)) → p.flatten v (some false) vv = .error .indexError) ∧
      ∃ e, p.flatten v (some true) vv = .error e := by
  refine ⟨fun hv h => flattenNF_empty p hp.wf v vv hv h he, ?_⟩
  cases h : p.flatten v (some true) vv with
  | error e => exact ⟨e, rfl⟩
  | ok x => exact absurd (flattenFree_noEmpty p v vv x h) he

/-- Not vacuous: a dictionary with a `PatternArray` of shape `(0,)` in it, and a value it accepts. -/
example :
    let p : Pattern := .dict (.cons "a" (.array [0] (.numeric .scalar [1] (.int 0) (.int 1) true none) none) .nil) false none
    let v : Val Flt := .dict [("a", .arr ⟨[0, 1], []⟩)]
    Built p ∧ ¬ p.NoEmpty ∧ v.WF ∧ ∃ m, p.validate v none = .ok (true, m) := by
  refine ⟨WF.built _ ?_, ?_, ?_, ?_⟩
  · simp [Pattern.WF, WFEs, Entries.keys, Entries.toList, Pattern.lock, PyNum.toFlt, isDict]
  · simp [Pattern.NoEmpty, NoEmptyEs]
  · simp [Val.WF, Val.WFEs, NDArray.WF]
  · refine acc_dict.2 ⟨_, rfl, ⟨_, by rw [List.lookup, beq_self_eq_true], ?_⟩, trivial⟩
    exact acc_array.2 ⟨_, rfl, rfl, fun i hi => absurd hi (by simp)⟩

end Paragami
