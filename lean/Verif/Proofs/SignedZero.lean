import Verif.Model.SignedZero
import Verif.Proofs.DTypes

/-! # The sign of zero: proofs -/

set_option linter.unusedSimpArgs false

namespace Paragami
open NDArray Memory

/-! ### Arithmetic -/

namespace SFlt

@[simp] theorem erase_signed (b : Bool) (f : Flt) : (signed b f).erase = f := by
  unfold signed
  split_ifs with h
  · simp [erase, h.1]
  · rfl

@[simp] theorem erase_val (f : Flt) : (val f).erase = f := rfl
@[simp] theorem erase_negZero : negZero.erase = .fin 0 := rfl
@[simp] theorem erase_neg (x : SFlt) : (-x).erase = -x.erase := erase_signed _ _
@[simp] theorem erase_add (x y : SFlt) : (x + y).erase = x.erase + y.erase := erase_signed _ _
@[simp] theorem erase_mul (x y : SFlt) : (x * y).erase = x.erase * y.erase := erase_signed _ _
@[simp] theorem erase_sub (x y : SFlt) : (x - y).erase = x.erase - y.erase := by
  show (SFlt.add x (SFlt.neg y)).erase = Flt.add x.erase (Flt.neg y.erase)
  have h1 := erase_add x (SFlt.neg y)
  have h2 := erase_neg y
  exact h1.trans (congrArg (Flt.add x.erase) h2)
theorem erase_div (x : SFlt) {y : SFlt} (h : y ≠ negZero) : (x / y).erase = x.erase / y.erase := by
  cases y with
  | negZero => exact absurd rfl h
  | val f => exact erase_signed _ _
theorem erase_div_negZero (x : SFlt) : (x / negZero).erase = -(x.erase / .fin 0) := rfl
@[simp] theorem erase_exp (x : SFlt) : x.exp.erase = x.erase.exp := rfl
@[simp] theorem erase_log (x : SFlt) : x.log.erase = x.erase.log := rfl
@[simp] theorem erase_abs (x : SFlt) : x.abs.erase = x.erase.abs := rfl
@[simp] theorem erase_ofNat (n : ℕ) : (OfNat.ofNat n : SFlt).erase = OfNat.ofNat n := rfl
@[simp] theorem erase_zero : (0 : SFlt).erase = 0 := rfl
@[simp] theorem erase_one : (1 : SFlt).erase = 1 := rfl
theorem toFlt_erase (x : SFlt) : Elem.toFlt (erase x) = Elem.toFlt x := rfl

theorem erase_foldl (l : List SFlt) : ∀ a : SFlt, (l.foldl (· + ·) a).erase = (l.map erase).foldl (· + ·) a.erase := by
  induction l with
  | nil => intro a; rfl
  | cons x l ih => intro a; rw [List.foldl_cons, ih, List.map_cons, List.foldl_cons, erase_add]

@[simp] theorem erase_sum (l : List SFlt) : (sum l).erase = Flt.sum (l.map erase) := erase_foldl l 0

theorem erase_max (M : MaxChoice) (l : List SFlt) : ∀ a : SFlt, (l.foldl M.max2 a).erase = Flt.maxOf a.erase (l.map erase) := by
  induction l with
  | nil => intro a; rfl
  | cons x l ih =>
    intro a
    rw [List.foldl_cons, ih, List.map_cons, M.erase_max2]; rfl

theorem ne_negZero {x : SFlt} (h : x.erase ≠ .fin 0) : x ≠ negZero := by
  rintro rfl
  exact h rfl

end SFlt

open SFlt

/-! ### Leaf transforms -/

theorem one_add_exp_ne (y : Flt) : 1 + y.exp ≠ Flt.fin 0 := by
  have h1 : (1 : Flt) = .fin 1 := by change Flt.fin ((1 : ℕ) : ℝ) = _; simp
  rw [h1]
  cases y with
  | fin r =>
    simp only [Flt.exp_fin, Flt.add_fin, ne_eq, Flt.fin.injEq]
    have := Real.exp_pos r
    linarith
  | pinf => exact fun h => nomatch h
  | ninf => simp
  | nan => exact fun h => nomatch h

/-- The four cases of bounds. -/
theorem bound_cases {T : SFlt → SFlt → SFlt} {t : Flt → Flt → Flt} {lb ub : SFlt} {a b c d : SFlt} {a' b' c' d' : Flt}
    (hT : T lb ub = if ub.eq (.val .pinf) then if lb.eq (.val .ninf) then a else b else if lb.eq (.val .ninf) then c else d)
    (ht : t lb.erase ub.erase = if ub.erase.eq .pinf then if lb.erase.eq .ninf then a' else b' else if lb.erase.eq .ninf then c' else d')
    (ha : a.erase = a') (hb : b.erase = b') (hc : c.erase = c') (hd : d.erase = d') : (T lb ub).erase = t lb.erase ub.erase := by
  have h1 : ub.eq (.val .pinf) = ub.erase.eq .pinf := rfl
  have h2 : lb.eq (.val .ninf) = lb.erase.eq .ninf := rfl
  rw [hT, ht, h1, h2]
  cases ub.erase.eq .pinf <;> cases lb.erase.eq .ninf
  · exact hd
  · exact hc
  · exact hb
  · exact ha

theorem erase_unconstrain1 (lb ub x : SFlt) : (Signed.unconstrain1 lb ub x).erase = unconstrain1 lb.erase ub.erase x.erase :=
  bound_cases (T := fun lb ub => Signed.unconstrain1 lb ub x) (t := fun lb ub => unconstrain1 lb ub x.erase) rfl rfl rfl (by simp) (by simp) (by simp)

theorem erase_constrain1 (lb ub y : SFlt) : (Signed.constrain1 lb ub y).erase = constrain1 lb.erase ub.erase y.erase :=
  bound_cases (T := fun lb ub => Signed.constrain1 lb ub y) (t := fun lb ub => constrain1 lb ub y.erase) rfl rfl rfl (by simp) (by simp) (by
    rw [erase_add, erase_div _ (ne_negZero (by simpa using one_add_exp_ne y.erase))]
    simp)

theorem erase_constrainJac1 (lb ub y : SFlt) : (Signed.constrainJac1 lb ub y).erase = constrainJac1 lb.erase ub.erase y.erase :=
  bound_cases (T := fun lb ub => Signed.constrainJac1 lb ub y) (t := fun lb ub => constrainJac1 lb ub y.erase) rfl rfl rfl (by simp) (by simp) (by
    simp only [erase_mul, erase_sub]
    rw [erase_div _ (ne_negZero (by simpa using one_add_exp_ne y.erase))]
    simp)

theorem erase_logsumexp1 (M : MaxChoice) (a : SFlt) (l : List SFlt) : (Signed.logsumexp1 M a l).erase = logsumexp1 a.erase (l.map erase) := by
  have h : (((a :: l).map fun x => x - l.foldl M.max2 a).map SFlt.exp).map erase =
      (lseShift a.erase (l.map erase)).map Flt.exp := by
    simp [lseShift, erase_max, Function.comp_def]
  simp only [Signed.logsumexp1, logsumexp1, lseSum, erase_add, erase_log, erase_sum, h, erase_max]

theorem erase_constrainSimplexRow (M : MaxChoice) (row : List SFlt) :
    (Signed.constrainSimplexRow M row).map erase = constrainSimplexRow (row.map erase) := by
  simp only [Signed.constrainSimplexRow, constrainSimplexRow, List.map_map, Function.comp_def, erase_exp, erase_sub, erase_logsumexp1, erase_zero,
    List.map_cons]

theorem erase_unconstrainSimplexRow (row : List SFlt) : (Signed.unconstrainSimplexRow row).map erase = unconstrainSimplexRow (row.map erase) := by
  cases row with
  | nil => rfl
  | cons r0 rest => simp [Signed.unconstrainSimplexRow, unconstrainSimplexRow, Function.comp_def]

/-! ### Arrays -/

section Natural
variable {α β : Type} (f : α → β)

theorem map_atleast1d (a : NDArray α) : (a.map f).atleast1d = a.atleast1d.map f := by
  obtain ⟨s, d⟩ := a
  cases s <;> rfl
theorem map_ndim (a : NDArray α) : (a.map f).ndim = a.ndim := rfl
theorem map_size (a : NDArray α) : (a.map f).size = a.size := by simp [NDArray.size, NDArray.map]
theorem map_len (a : NDArray α) : (a.map f).len = a.len := rfl
theorem map_vec (l : List α) : (vec l).map f = vec (l.map f) := by simp [vec, NDArray.map]
theorem map_slice (a : NDArray α) (lo n : Nat) : (a.map f).slice lo n = (a.slice lo n).map f := by
  rw [NDArray.slice, NDArray.slice, map_vec, List.map_take, List.map_drop]; rfl
theorem map_reshape (a : NDArray α) (s : List Nat) : (a.map f).reshape s = (a.reshape s).map (NDArray.map f) := by
  simp only [NDArray.reshape, NDArray.map, List.length_map]
  split_ifs <;> rfl
theorem map_getItem (a : NDArray α) (idx : List Nat) : (a.map f).getItem idx = (a.getItem idx).map (NDArray.map f) := by
  have hs : (a.map f).shape = a.shape := rfl
  have hd : (a.map f).data = a.data.map f := rfl
  rw [NDArray.getItem, NDArray.getItem, hs, hd]
  cases inRange a.shape idx with
  | false => rfl
  | true =>
    show Except.ok _ = Except.ok _
    rw [NDArray.map, List.map_take, List.map_drop]
theorem map_stack (l : List (NDArray α)) : stack (l.map (NDArray.map f)) = (stack l).map (NDArray.map f) := by
  cases l with
  | nil => rfl
  | cons a as =>
    have h : ((as.map (NDArray.map f)).all fun b => b.shape == (a.map f).shape) = as.all fun b => b.shape == a.shape := by
      rw [List.all_map]; rfl
    simp only [stack, List.map_cons, h]
    split_ifs
    · simp [Except.map, NDArray.map, List.map_flatMap, List.flatMap_map]
    · rfl
theorem map_hstack (l : List (NDArray α)) : hstack (l.map (NDArray.map f)) = (hstack l).map (NDArray.map f) := by
  cases l with
  | nil => rfl
  | cons a as =>
    have h : ((a :: as).map (NDArray.map f)).flatMap (·.data) = ((a :: as).flatMap (·.data)).map f := by
      rw [List.map_flatMap, List.flatMap_map]; rfl
    show Except.ok (vec (((a :: as).map (NDArray.map f)).flatMap (·.data))) = Except.ok ((vec ((a :: as).flatMap (·.data))).map f)
    rw [h, map_vec]
theorem map_rows (n k : Nat) (d : List α) : rows n k (d.map f) = (rows n k d).map (List.map f) := by
  simp [rows, List.map_take, List.map_drop]
theorem map_ofFn2 (n m : Nat) (g : Nat → Nat → α) : (ofFn2 n m g).map f = ofFn2 n m fun i j => f (g i j) := by
  simp [ofFn2, NDArray.map, List.map_flatMap, Function.comp_def]

theorem mapE_natural {ι γ δ : Type} {g : ι → Except Err γ} {h : ι → Except Err δ} {m : γ → δ} (H : ∀ i, h i = (g i).map m) (l : List ι) :
    mapE h l = (mapE g l).map (List.map m) := by
  induction l with
  | nil => rfl
  | cons i l ih =>
    rw [mapE, mapE, H i, ih]
    cases g i with
    | error e => rfl
    | ok a => cases mapE g l <;> rfl

theorem asArr_natural (v : Val α) : (v.map f).asArr = v.asArr.map (NDArray.map f) := by
  cases v <;> rfl

theorem foldItems_natural {g : NDArray α → Except Err (Val α)} {h : NDArray β → Except Err (Val β)} (H : ∀ x, h (x.map f) = (g x).map (Val.map f))
    (x : NDArray α) (s t : List Nat) (len : Nat) : Pattern.foldItems h (x.map f) s t len = (Pattern.foldItems g x s t len).map (NDArray.map f) := by
  have h1 : mapE (fun item => do let v ← h ((x.map f).slice (NDArray.ravel s item * len) len); v.asArr) (productRanges s) =
      (mapE (fun item => do let v ← g (x.slice (NDArray.ravel s item * len) len); v.asArr) (productRanges s)).map (List.map (NDArray.map f)) := by
    refine mapE_natural (fun item => ?_) _
    simp only [map_slice, H]
    cases g (x.slice (NDArray.ravel s item * len) len) with
    | error e => rfl
    | ok v => exact asArr_natural f v
  simp only [Pattern.foldItems]
  rw [h1]
  cases mapE (fun item => do let v ← g (x.slice (NDArray.ravel s item * len) len); v.asArr) (productRanges s) with
  | error e => rfl
  | ok parts =>
    simp only [Except.map, bind, Except.bind, map_stack]
    cases stack parts with
    | error e => rfl
    | ok a => exact map_reshape f a t

theorem flattenItems_natural {g : Val α → Except Err (NDArray α)} {h : Val β → Except Err (NDArray β)} (H : ∀ v, h (v.map f) = (g v).map (NDArray.map f))
    (a : NDArray α) (s : List Nat) : Pattern.flattenItems h (a.map f) s = (Pattern.flattenItems g a s).map (NDArray.map f) := by
  have h1 : mapE (fun item => do let sub ← (a.map f).getItem item; h (.arr sub)) (productRanges s) =
      (mapE (fun item => do let sub ← a.getItem item; g (.arr sub)) (productRanges s)).map (List.map (NDArray.map f)) := by
    refine mapE_natural (fun item => ?_) _
    simp only [map_getItem]
    cases a.getItem item with
    | error e => rfl
    | ok b => exact H (.arr b)
  simp only [Pattern.flattenItems]
  rw [h1]
  cases mapE (fun item => do let sub ← a.getItem item; g (.arr sub)) (productRanges s) with
  | error e => rfl
  | ok parts => exact map_hstack f parts

theorem checkFlat_natural (x : NDArray α) (n : Nat) : Pattern.checkFlat (x.map f) n = (Pattern.checkFlat x n).map (NDArray.map f) := by
  simp only [Pattern.checkFlat, map_atleast1d, map_ndim, map_size]
  split_ifs <;> rfl

theorem lookup_natural (k : String) (vs : List (String × Val α)) : (Val.mapEs f vs).lookup k = (vs.lookup k).map (Val.map f) := by
  induction vs with
  | nil => rfl
  | cons e vs ih =>
    obtain ⟨k', v⟩ := e
    rw [Val.mapEs, List.lookup_cons, List.lookup_cons]
    cases k == k' <;> simp [ih]

end Natural

/-! ### Validation sees values only -/

section Valid
variable {α β : Type} [Elem α] [Elem β] {f : α → β} (hf : ∀ a, Elem.toFlt (f a) = Elem.toFlt a)
include hf

theorem numeric_validate_natural (s : List Nat) (lb ub : Flt) (dv : Bool) (a : NDArray α) (vv : Option Bool) :
    Numeric.validate s lb ub dv (a.map f) vv = Numeric.validate s lb ub dv a vv := by
  simp only [Numeric.validate, map_atleast1d, Numeric.validateShape]
  simp only [NDArray.map, List.any_map, Function.comp_def, hf]
  rfl

theorem simplex_validate_natural (k : Nat) (s : List Nat) (dv : Bool) (a : NDArray α) (vv : Option Bool) :
    Simplex.validate k s dv (a.map f) vv = Simplex.validate k s dv a vv := by
  simp only [Simplex.validate, Simplex.validateShape, NDArray.map, List.map_map, Function.comp_def, hf]
  rfl

theorem psd_validate_natural (n : Nat) (lb : Flt) (dv : Bool) (a : NDArray α) (vv : Option Bool) :
    PSD.validate n lb dv (a.map f) vv = PSD.validate n lb dv a vv := by
  simp only [PSD.validate, PSD.validateShape, NDArray.map, List.map_map, Function.comp_def, hf]
  rfl

omit hf [Elem α] [Elem β] in
theorem validateItems_natural {g : NDArray α → Except Err (Bool × String)} {h : NDArray β → Except Err (Bool × String)} (H : ∀ x, h (x.map f) = g x)
    (a : NDArray α) : ∀ items, Pattern.validateItems h (a.map f) items = Pattern.validateItems g a items
  | [] => rfl
  | item :: items => by
    rw [Pattern.validateItems, Pattern.validateItems, map_getItem]
    cases a.getItem item with
    | error e => rfl
    | ok b =>
      simp only [Except.map, bind, Except.bind, H]
      cases g b with
      | error e => rfl
      | ok r =>
        simp only
        rw [validateItems_natural H a items]

theorem validate_natural (p : Pattern) : ∀ (v : Val α) (vv : Option Bool), p.validate (v.map f) vv = p.validate v vv := by
  induction p using Pattern.ind
    (Q := fun es => ∀ (vs : List (String × Val α)) (vv : Option Bool), Pattern.validateEs es (Val.mapEs f vs) vv = Pattern.validateEs es vs vv) with
  | hnum c s lb ub dv fd =>
    intro v vv
    cases v with
    | arr a => exact congrArg Except.ok (numeric_validate_natural hf s lb.toFlt ub.toFlt dv a vv)
    | dict vs => rfl
  | hsim k s dv fd =>
    intro v vv
    cases v with
    | arr a => exact simplex_validate_natural hf k s dv a vv
    | dict vs => rfl
  | hpsd n lb dv fd =>
    intro v vv
    cases v with
    | arr a => exact psd_validate_natural hf n lb.toFlt dv a vv
    | dict vs => rfl
  | harr s b fd ih =>
    intro v vv
    cases v with
    | arr a =>
      rw [Pattern.validate, Pattern.validate, asArr_natural]
      simp only [Val.asArr, Except.map, bind, Except.bind]
      rw [validateItems_natural (g := fun sub => b.validate (.arr sub) vv) (fun x => ih (.arr x) vv)]
      rfl
    | dict vs => rfl
  | hdict es l fd ih =>
    intro v vv
    cases v with
    | arr a => rfl
    | dict vs => exact ih vs vv
  | hnil vs vv => rfl
  | hcons k p r ihp ihr vs vv =>
    rw [Pattern.validateEs, Pattern.validateEs, lookup_natural]
    cases vs.lookup k with
    | none => rfl
    | some v =>
      simp only [Option.map_some, ihp, ihr]

theorem foldNF_natural (p : Pattern) : ∀ (x : NDArray α) (vv : Option Bool), p.foldNF (x.map f) vv = (p.foldNF x vv).map (Val.map f) := by
  induction p using Pattern.ind
    (Q := fun es => ∀ (x : NDArray α) (vv : Option Bool) (off : Nat), Pattern.foldNFEs es (x.map f) vv off = (Pattern.foldNFEs es x vv off).map (Val.mapEs f)) with
  | hnum c s lb ub dv fd =>
    intro x vv
    simp only [Pattern.foldNF, Numeric.foldNF, map_atleast1d, map_ndim, map_size, map_reshape]
    simp only [bind, Except.bind, throw, throwThe, MonadExceptOf.throw, pure, Except.pure]
    split_ifs
    · rfl
    · rfl
    · cases x.atleast1d.reshape s with
      | error e => rfl
      | ok a =>
        simp only [Except.map, numeric_validate_natural hf]
        cases (Numeric.validate s lb.toFlt ub.toFlt dv a vv).1 <;> rfl
  | hsim k s dv fd =>
    intro x vv
    simp only [Pattern.foldNF, Simplex.foldNF, map_len, map_reshape]
    simp only [bind, Except.bind, throw, throwThe, MonadExceptOf.throw, pure, Except.pure]
    cases x.len with
    | error e => rfl
    | ok n =>
      simp only
      split_ifs
      · rfl
      · cases x.reshape (s ++ [k]) with
        | error e => rfl
        | ok a =>
          simp only [Except.map, simplex_validate_natural hf]
          cases Simplex.validate k s dv a vv with
          | error e => rfl
          | ok r => obtain ⟨b, m⟩ := r; cases b <;> rfl
  | hpsd n lb dv fd =>
    intro x vv
    simp only [Pattern.foldNF, PSD.foldNF, map_atleast1d, map_ndim, map_size, map_reshape]
    simp only [bind, Except.bind, throw, throwThe, MonadExceptOf.throw, pure, Except.pure]
    split_ifs
    · rfl
    · rfl
    · cases x.atleast1d.reshape [n, n] with
      | error e => rfl
      | ok a =>
        simp only [Except.map, psd_validate_natural hf]
        cases PSD.validate n lb.toFlt dv a vv with
        | error e => rfl
        | ok r => obtain ⟨b, m⟩ := r; cases b <;> rfl
  | harr s b fd ih =>
    intro x vv
    rw [Pattern.foldNF, Pattern.foldNF, checkFlat_natural]
    simp only [bind, Except.bind, pure, Except.pure]
    cases Pattern.checkFlat x (s.prod * b.flatLen false) with
    | error e => rfl
    | ok y =>
      simp only [Except.map]
      rw [foldItems_natural f (g := fun sub => b.foldNF sub vv) (h := fun sub => b.foldNF sub vv) (fun x => ih x vv)]
      cases Pattern.foldItems (fun sub => b.foldNF sub vv) y s (s ++ b.shape) (b.flatLen false) with
      | error e => rfl
      | ok a =>
        have h1 := validate_natural hf (.array s b fd) (.arr a) vv
        rw [Val.map] at h1
        simp only [Except.map, h1]
        cases Pattern.requireValid ((Pattern.array s b fd).validate (.arr a) vv) <;> rfl
  | hdict es l fd ih =>
    intro x vv
    rw [Pattern.foldNF, Pattern.foldNF, checkFlat_natural]
    simp only [bind, Except.bind, pure, Except.pure]
    cases Pattern.checkFlat x (Pattern.flatLenEs es false) with
    | error e => rfl
    | ok y =>
      simp only [Except.map, ih]
      cases Pattern.foldNFEs es y vv 0 with
      | error e => rfl
      | ok vs =>
        have h1 := validate_natural hf (.dict es l fd) (.dict vs) vv
        rw [Val.map] at h1
        simp only [Except.map, h1]
        cases Pattern.requireValid ((Pattern.dict es l fd).validate (.dict vs) vv) <;> rfl
  | hnil x vv off => rfl
  | hcons k p r ihp ihr x vv off =>
    rw [Pattern.foldNFEs, Pattern.foldNFEs, map_slice, ihp, ihr]
    simp only [bind, Except.bind, pure, Except.pure]
    cases p.foldNF (x.slice off (p.flatLen false)) vv with
    | error e => rfl
    | ok v =>
      simp only [Except.map]
      cases Pattern.foldNFEs r x vv (off + p.flatLen false) <;> rfl

theorem flattenNF_natural (p : Pattern) : ∀ (v : Val α) (vv : Option Bool), p.flattenNF (v.map f) vv = (p.flattenNF v vv).map (NDArray.map f) := by
  induction p using Pattern.ind
    (Q := fun es => ∀ (vs : List (String × Val α)) (vv : Option Bool), Pattern.flattenNFEs es (Val.mapEs f vs) vv =
      (Pattern.flattenNFEs es vs vv).map (List.map (NDArray.map f))) with
  | hnum c s lb ub dv fd =>
    intro v vv
    cases v with
    | dict vs => rfl
    | arr a =>
      simp only [Pattern.flattenNF, Val.map, Val.asArr, Except.map, Numeric.flattenNF]
      simp only [bind, Except.bind, throw, throwThe, MonadExceptOf.throw, pure, Except.pure]
      simp only [map_atleast1d, numeric_validate_natural hf]
      cases (Numeric.validate s lb.toFlt ub.toFlt dv a.atleast1d vv).1
      · rfl
      · exact congrArg Except.ok (map_vec f _).symm
  | hsim k s dv fd =>
    intro v vv
    cases v with
    | dict vs => rfl
    | arr a =>
      simp only [Pattern.flattenNF, Val.map, Val.asArr, Except.map, Simplex.flattenNF]
      simp only [bind, Except.bind, throw, throwThe, MonadExceptOf.throw, pure, Except.pure]
      simp only [simplex_validate_natural hf]
      cases Simplex.validate k s dv a vv with
      | error e => rfl
      | ok r =>
        obtain ⟨b, m⟩ := r
        cases b
        · rfl
        · exact congrArg Except.ok (map_vec f _).symm
  | hpsd n lb dv fd =>
    intro v vv
    cases v with
    | dict vs => rfl
    | arr a =>
      simp only [Pattern.flattenNF, Val.map, Val.asArr, Except.map, PSD.flattenNF]
      simp only [bind, Except.bind, throw, throwThe, MonadExceptOf.throw, pure, Except.pure]
      simp only [psd_validate_natural hf]
      cases PSD.validate n lb.toFlt dv a vv with
      | error e => rfl
      | ok r =>
        obtain ⟨b, m⟩ := r
        cases b
        · rfl
        · exact congrArg Except.ok (map_vec f _).symm
  | harr s b fd ih =>
    intro v vv
    rw [Pattern.flattenNF, Pattern.flattenNF, validate_natural hf]
    simp only [bind, Except.bind]
    cases Pattern.requireValid ((Pattern.array s b fd).validate v vv) with
    | error e => rfl
    | ok _ =>
      cases v with
      | dict vs => rfl
      | arr a => exact flattenItems_natural f (g := fun sub => b.flattenNF sub vv) (h := fun sub => b.flattenNF sub vv) (fun v => ih v vv) a s
  | hdict es l fd ih =>
    intro v vv
    rw [Pattern.flattenNF, Pattern.flattenNF, validate_natural hf]
    simp only [bind, Except.bind]
    cases Pattern.requireValid ((Pattern.dict es l fd).validate v vv) with
    | error e => rfl
    | ok _ =>
      cases v with
      | arr a => rfl
      | dict vs =>
        simp only [Val.map, Val.asDict, ih]
        cases Pattern.flattenNFEs es vs vv with
        | error e => rfl
        | ok parts => exact map_hstack f parts
  | hnil vs vv => rfl
  | hcons k p r ihp ihr vs vv =>
    rw [Pattern.flattenNFEs, Pattern.flattenNFEs, lookup_natural]
    cases vs.lookup k with
    | none => rfl
    | some v =>
      simp only [Option.map_some, ihp, ihr, bind, Except.bind, pure, Except.pure]
      cases p.flattenNF v vv with
      | error e => rfl
      | ok x =>
        simp only [Except.map]
        cases Pattern.flattenNFEs r vs vv <;> rfl

end Valid

/-! ### Free leaves -/

theorem erase_numericFold (s : List Nat) (lb ub : SFlt) (x : NDArray SFlt) :
    (Signed.numericFold s lb ub x).map (NDArray.map erase) = Numeric.foldFree s lb.erase ub.erase (x.map erase) := by
  have h : (x.atleast1d.map (Signed.constrain1 lb ub)).map erase = (x.atleast1d.map erase).map (constrain1 lb.erase ub.erase) := by
    simp only [NDArray.map, List.map_map, Function.comp_def, erase_constrain1]
  simp only [Signed.numericFold, Numeric.foldFree, map_atleast1d, map_ndim, map_size]
  simp only [bind, Except.bind, throw, throwThe, MonadExceptOf.throw, pure, Except.pure]
  split_ifs
  · rfl
  · rfl
  · rw [← map_reshape, h]

theorem erase_numericFlatten (s : List Nat) (lb ub : SFlt) (dv : Bool) (a : NDArray SFlt) (vv : Option Bool) :
    (Signed.numericFlatten s lb ub dv a vv).map (NDArray.map erase) = Numeric.flattenFree s lb.erase ub.erase dv (a.map erase) vv := by
  simp only [Signed.numericFlatten, Numeric.flattenFree, map_atleast1d, numeric_validate_natural toFlt_erase]
  simp only [bind, Except.bind, throw, throwThe, MonadExceptOf.throw, pure, Except.pure]
  cases (Numeric.validate s lb.erase ub.erase dv a.atleast1d vv).1
  · rfl
  · show Except.ok _ = Except.ok _
    simp only [NDArray.flatten, map_vec]
    simp only [NDArray.map, List.map_map, Function.comp_def, erase_unconstrain1]

theorem erase_simplexFold (M : MaxChoice) (k : Nat) (s : List Nat) (x : NDArray SFlt) :
    (Signed.simplexFold M k s x).map (NDArray.map erase) = Simplex.foldFree k s (x.map erase) := by
  simp only [Signed.simplexFold, Simplex.foldFree, map_len, map_reshape]
  simp only [bind, Except.bind, throw, throwThe, MonadExceptOf.throw, pure, Except.pure]
  cases x.len with
  | error e => rfl
  | ok n =>
    simp only
    split_ifs
    · rfl
    · cases x.reshape (s ++ [k - 1]) with
      | error e => rfl
      | ok a =>
        have hd : (a.map erase).data = a.data.map erase := rfl
        simp only [Except.map, hd, map_rows]
        rw [NDArray.map, List.map_flatMap, List.flatMap_map]
        simp only [erase_constrainSimplexRow]

theorem erase_simplexFlatten (k : Nat) (s : List Nat) (dv : Bool) (a : NDArray SFlt) (vv : Option Bool) :
    (Signed.simplexFlatten k s dv a vv).map (NDArray.map erase) = Simplex.flattenFree k s dv (a.map erase) vv := by
  simp only [Signed.simplexFlatten, Simplex.flattenFree, simplex_validate_natural toFlt_erase]
  simp only [bind, Except.bind, throw, throwThe, MonadExceptOf.throw, pure, Except.pure]
  cases Simplex.validate k s dv a vv with
  | error e => rfl
  | ok r =>
    obtain ⟨b, m⟩ := r
    cases b
    · rfl
    · have hd : (a.map erase).data = a.data.map erase := rfl
      show Except.ok _ = Except.ok _
      rw [hd, map_rows, map_vec, List.map_flatMap, List.flatMap_map]
      simp only [erase_unconstrainSimplexRow]

theorem erase_getD (l : List SFlt) (i : Nat) : (l.getD i (.val .nan)).erase = (l.map erase).getD i .nan := by
  rw [List.getD_eq_getElem?_getD, List.getD_eq_getElem?_getD, List.getElem?_map]
  cases l[i]? <;> rfl

theorem erase_entry (m : Nat) (l : List SFlt) (i j : Nat) : (Signed.entry m l i j).erase = entry m (l.map erase) i j := erase_getD l _

theorem erase_ite (c : Prop) [Decidable c] (x y : SFlt) : (if c then x else y).erase = if c then x.erase else y.erase := by
  split_ifs <;> rfl

theorem erase_unvectorizeLd (v : NDArray SFlt) : (Signed.unvectorizeLd v).map (NDArray.map erase) = unvectorizeLd (v.map erase) := by
  simp only [Signed.unvectorizeLd, unvectorizeLd, map_size]
  split_ifs
  · rfl
  · show Except.ok _ = Except.ok _
    rw [map_ofFn2]
    simp only [erase_ite, erase_getD, erase_zero]
    rfl

theorem erase_expDiag (n : Nat) (mat : NDArray SFlt) : (Signed.expDiag n mat).map erase = expDiag n (mat.map erase) := by
  rw [Signed.expDiag, map_ofFn2, expDiag]
  simp only [erase_sub, erase_add, erase_ite, erase_exp, erase_entry, erase_zero]
  rfl

theorem erase_unpackPosdef (lb : SFlt) (v : NDArray SFlt) : (Signed.unpackPosdef lb v).map (NDArray.map erase) = unpackPosdef lb.erase (v.map erase) := by
  simp only [Signed.unpackPosdef, unpackPosdef, ← erase_unvectorizeLd, map_size]
  cases Signed.unvectorizeLd v with
  | error e => rfl
  | ok ld =>
    simp only [bind, Except.bind, Except.map, pure, Except.pure]
    rw [map_ofFn2, ← erase_expDiag]
    have h : (ofFn2 (matSize v.size) (matSize v.size) fun i j => SFlt.sum ((List.range (matSize v.size)).map fun k =>
          Signed.entry (matSize v.size) (Signed.expDiag (matSize v.size) ld).data i k *
            Signed.entry (matSize v.size) (Signed.expDiag (matSize v.size) ld).data j k)).data.map erase =
        (ofFn2 (matSize v.size) (matSize v.size) fun i j => Flt.sum ((List.range (matSize v.size)).map fun k =>
          entry (matSize v.size) ((Signed.expDiag (matSize v.size) ld).map erase).data i k *
            entry (matSize v.size) ((Signed.expDiag (matSize v.size) ld).map erase).data j k)).data := by
      have := map_ofFn2 erase (matSize v.size) (matSize v.size) fun i j => SFlt.sum ((List.range (matSize v.size)).map fun k =>
          Signed.entry (matSize v.size) (Signed.expDiag (matSize v.size) ld).data i k *
            Signed.entry (matSize v.size) (Signed.expDiag (matSize v.size) ld).data j k)
      have := congrArg NDArray.data this
      simp only [erase_sum, List.map_map, Function.comp_def, erase_mul, erase_entry] at this
      exact this
    simp only [erase_add, erase_ite, erase_entry, erase_zero, h]

theorem erase_psdFold (n : Nat) (lb : SFlt) (x : NDArray SFlt) :
    (Signed.psdFold n lb x).map (NDArray.map erase) = PSD.foldFree n lb.erase (x.map erase) := by
  simp only [Signed.psdFold, PSD.foldFree, map_atleast1d, map_ndim, map_size]
  simp only [bind, Except.bind, throw, throwThe, MonadExceptOf.throw, pure, Except.pure]
  split_ifs
  · rfl
  · rfl
  · exact erase_unpackPosdef lb _

theorem erase_psdFlatten (n : Nat) (lb : SFlt) (dv : Bool) (a : NDArray SFlt) (vv : Option Bool) :
    (Signed.psdFlatten n lb dv a vv).map (NDArray.map erase) = PSD.flattenFree n lb.erase dv (a.map erase) vv := by
  simp only [Signed.psdFlatten, PSD.flattenFree, psd_validate_natural toFlt_erase]
  simp only [bind, Except.bind, throw, throwThe, MonadExceptOf.throw, pure, Except.pure]
  cases PSD.validate n lb.erase dv a vv with
  | error e => rfl
  | ok r =>
    obtain ⟨b, m⟩ := r
    cases b
    · rfl
    · have h : (ofFn2 n n fun i j => Signed.entry n a.data i j - (if i = j then lb else 0)).map erase =
          ofFn2 n n fun i j => entry n (a.map erase).data i j - (if i = j then lb.erase else 0) := by
        rw [map_ofFn2]
        simp only [erase_sub, erase_ite, erase_entry, erase_zero]
        rfl
      simp only [packPosdef, h, bind, Except.bind, Bool.not_true, Bool.false_eq_true, if_false]
      cases cholesky n (ofFn2 n n fun i j => entry n (a.map erase).data i j - (if i = j then lb.erase else 0)) with
      | error e => rfl
      | ok c =>
        simp only
        cases vectorizeLd (logDiag n c) with
        | error e => rfl
        | ok y =>
          show Except.ok _ = Except.ok _
          simp [NDArray.map, Function.comp_def]

/-! ### Trees -/

theorem foldFree_signed (M : MaxChoice) (p : Pattern) : ∀ x : NDArray SFlt, (p.foldFreeSigned M x).map (Val.map erase) = p.foldFree (x.map erase) := by
  induction p using Pattern.ind
    (Q := fun es => ∀ (x : NDArray SFlt) (off : Nat), (Pattern.foldFreeSignedEs M es x off).map (Val.mapEs erase) = Pattern.foldFreeEs es (x.map erase) off) with
  | hnum c s lb ub dv fd =>
    intro x
    have := erase_numericFold s (.val lb.toFlt) (.val ub.toFlt) x
    simp only [erase_val] at this
    rw [Pattern.foldFreeSigned, Pattern.foldFree, ← this]
    cases Signed.numericFold s (.val lb.toFlt) (.val ub.toFlt) x <;> rfl
  | hsim k s dv fd =>
    intro x
    rw [Pattern.foldFreeSigned, Pattern.foldFree, ← erase_simplexFold M]
    cases Signed.simplexFold M k s x <;> rfl
  | hpsd n lb dv fd =>
    intro x
    have := erase_psdFold n (.val lb.toFlt) x
    simp only [erase_val] at this
    rw [Pattern.foldFreeSigned, Pattern.foldFree, ← this]
    cases Signed.psdFold n (.val lb.toFlt) x <;> rfl
  | harr s b fd ih =>
    intro x
    rw [Pattern.foldFreeSigned, Pattern.foldFree, checkFlat_natural]
    simp only [bind, Except.bind, pure, Except.pure]
    cases Pattern.checkFlat x (s.prod * b.flatLen true) with
    | error e => rfl
    | ok y =>
      simp only [Except.map]
      rw [foldItems_natural erase (g := fun sub => b.foldFreeSigned M sub) (h := fun sub => b.foldFree sub) (fun x => (ih x).symm)]
      cases Pattern.foldItems (fun sub => b.foldFreeSigned M sub) y s (s ++ b.shape) (b.flatLen true) <;> rfl
  | hdict es l fd ih =>
    intro x
    rw [Pattern.foldFreeSigned, Pattern.foldFree, checkFlat_natural]
    simp only [bind, Except.bind, pure, Except.pure]
    cases Pattern.checkFlat x (Pattern.flatLenEs es true) with
    | error e => rfl
    | ok y =>
      simp only [Except.map, ← ih]
      cases Pattern.foldFreeSignedEs M es y 0 <;> rfl
  | hnil x off => rfl
  | hcons k p r ihp ihr x off =>
    rw [Pattern.foldFreeSignedEs, Pattern.foldFreeEs, map_slice, ← ihp, ← ihr]
    simp only [bind, Except.bind, pure, Except.pure]
    cases p.foldFreeSigned M (x.slice off (p.flatLen true)) with
    | error e => rfl
    | ok v =>
      simp only [Except.map]
      cases Pattern.foldFreeSignedEs M r x (off + p.flatLen true) <;> rfl

theorem flattenFree_signed (p : Pattern) : ∀ (v : Val SFlt) (vv : Option Bool),
    (p.flattenFreeSigned v vv).map (NDArray.map erase) = p.flattenFree (v.map erase) vv := by
  induction p using Pattern.ind
    (Q := fun es => ∀ (vs : List (String × Val SFlt)) (vv : Option Bool), (Pattern.flattenFreeSignedEs es vs vv).map (List.map (NDArray.map erase)) =
      Pattern.flattenFreeEs es (Val.mapEs erase vs) vv) with
  | hnum c s lb ub dv fd =>
    intro v vv
    cases v with
    | dict vs => rfl
    | arr a => exact erase_numericFlatten s (.val lb.toFlt) (.val ub.toFlt) dv a vv
  | hsim k s dv fd =>
    intro v vv
    cases v with
    | dict vs => rfl
    | arr a => exact erase_simplexFlatten k s dv a vv
  | hpsd n lb dv fd =>
    intro v vv
    cases v with
    | dict vs => rfl
    | arr a => exact erase_psdFlatten n (.val lb.toFlt) dv a vv
  | harr s b fd ih =>
    intro v vv
    rw [Pattern.flattenFreeSigned, Pattern.flattenFree, validate_natural toFlt_erase]
    simp only [bind, Except.bind]
    cases Pattern.requireValid ((Pattern.array s b fd).validate v vv) with
    | error e => rfl
    | ok _ =>
      cases v with
      | dict vs => rfl
      | arr a =>
        exact (flattenItems_natural erase (g := fun sub => b.flattenFreeSigned sub vv) (h := fun sub => b.flattenFree sub vv) (fun v => (ih v vv).symm) a s).symm
  | hdict es l fd ih =>
    intro v vv
    rw [Pattern.flattenFreeSigned, Pattern.flattenFree, validate_natural toFlt_erase]
    simp only [bind, Except.bind]
    cases Pattern.requireValid ((Pattern.dict es l fd).validate v vv) with
    | error e => rfl
    | ok _ =>
      cases v with
      | arr a => rfl
      | dict vs =>
        simp only [Val.map, Val.asDict, ← ih]
        cases Pattern.flattenFreeSignedEs es vs vv with
        | error e => rfl
        | ok parts => exact (map_hstack erase parts).symm
  | hnil vs vv => rfl
  | hcons k p r ihp ihr vs vv =>
    rw [Pattern.flattenFreeSignedEs, Pattern.flattenFreeEs, lookup_natural]
    cases vs.lookup k with
    | none => rfl
    | some v =>
      simp only [Option.map_some, ← ihp, ← ihr, bind, Except.bind, pure, Except.pure]
      cases p.flattenFreeSigned v vv with
      | error e => rfl
      | ok x =>
        simp only [Except.map]
        cases Pattern.flattenFreeSignedEs r vs vv <;> rfl

/-! ### Jacobians -/

theorem signbit_val_zero : signbit (val (.fin 0)) = false := by simp [signbit]

/-- A difference is `-0.0` only for `-0.0 - 0.0`. -/
theorem sub_eq_negZero_iff (x y : SFlt) : x - y = negZero ↔ x = negZero ∧ y = val (.fin 0) := by
  show SFlt.add x (SFlt.neg y) = negZero ↔ _
  constructor
  · intro h
    have key : ∀ b f, signed b f = negZero → f = .fin 0 ∧ b = true := by
      intro b f hbf
      by_contra hn
      rw [signed, if_neg hn] at hbf
      cases hbf
    obtain ⟨h1, h2⟩ := key _ _ h
    have he : (SFlt.neg y).erase = -y.erase := erase_neg y
    rw [he] at h1
    simp only [Bool.and_eq_true] at h2
    obtain ⟨hx, hy⟩ := h2
    cases x with
    | negZero =>
      refine ⟨rfl, ?_⟩
      cases y with
      | negZero => simp [SFlt.neg, signed, signbit, erase] at hy
      | val f =>
        cases f with
        | fin r =>
          have : r = 0 := by
            simp only [erase, HAdd.hAdd, Add.add, Neg.neg, Flt.add, Flt.neg, Flt.fin.injEq] at h1
            have h1' : (0 : ℝ) + -r = 0 := h1
            linarith
          rw [this]
        | ninf => simp [erase, HAdd.hAdd, Add.add, Neg.neg, Flt.add, Flt.neg] at h1
        | pinf => simp [erase, HAdd.hAdd, Add.add, Neg.neg, Flt.add, Flt.neg] at h1
        | nan => simp [erase, HAdd.hAdd, Add.add, Neg.neg, Flt.add, Flt.neg] at h1
    | val f =>
      exfalso
      cases f with
      | nan => simp [signbit] at hx
      | pinf => simp [signbit] at hx
      | ninf =>
        cases y with
        | negZero => simp [erase, HAdd.hAdd, Add.add, Neg.neg, Flt.add, Flt.neg] at h1
        | val g => cases g <;> simp [erase, HAdd.hAdd, Add.add, Neg.neg, Flt.add, Flt.neg] at h1
      | fin r =>
        have hr : r < 0 := by simpa [signbit] using hx
        cases y with
        | negZero => simp [SFlt.neg, signed, signbit, erase] at hy
        | val g =>
          cases g with
          | fin t =>
            have h1' : r + -t = 0 := by
              simpa only [erase, HAdd.hAdd, Add.add, Neg.neg, Flt.add, Flt.neg, Flt.fin.injEq] using h1
            have ht : t < 0 := by linarith
            have : SFlt.neg (val (.fin t)) = val (.fin (-t)) := by
              rw [SFlt.neg, signed, if_neg]
              · rfl
              · rintro ⟨h, -⟩
                have : -t = 0 := by simpa [erase, Neg.neg, Flt.neg] using h
                linarith
            rw [this] at hy
            have : -t < 0 := by simpa [signbit] using hy
            linarith
          | ninf => simp [erase, HAdd.hAdd, Add.add, Neg.neg, Flt.add, Flt.neg] at h1
          | pinf => simp [erase, HAdd.hAdd, Add.add, Neg.neg, Flt.add, Flt.neg] at h1
          | nan => simp [erase, HAdd.hAdd, Add.add, Neg.neg, Flt.add, Flt.neg] at h1
  · rintro ⟨rfl, rfl⟩
    have : SFlt.neg (val (.fin 0)) = negZero := by
      rw [SFlt.neg, signed, if_pos]
      exact ⟨by simp [erase], by simp [signbit]⟩
    rw [this, SFlt.add, signed, if_pos]
    exact ⟨by simp [erase], by simp [signbit]⟩

open Classical in
theorem erase_one_div_sub (x y : SFlt) : (1 / (x - y)).erase = if x = negZero ∧ y = val (.fin 0) then .ninf else 1 / (x.erase - y.erase) := by
  by_cases h : x = negZero ∧ y = val (.fin 0)
  · rw [if_pos h, (sub_eq_negZero_iff x y).2 h, erase_div_negZero]
    show -((1 : Flt) / .fin 0) = .ninf
    have : (1 : Flt) / .fin 0 = .pinf := by
      show Flt.div (.fin ((1 : ℕ) : ℝ)) (.fin 0) = _
      simp [Flt.div, Flt.scaleInf]
    rw [this]
    rfl
  · rw [if_neg h, erase_div _ (fun h' => h ((sub_eq_negZero_iff x y).1 h')), erase_sub]
    rfl

theorem one_div_zero : (1 : Flt) / (.fin 0 - .fin 0) = .pinf := by
  rw [Flt.sub_fin]
  show Flt.div (.fin ((1 : ℕ) : ℝ)) (.fin (0 - 0)) = _
  simp [Flt.div, Flt.scaleInf]

theorem one_div_fin {r : ℝ} (h : r ≠ 0) : (1 : Flt) / .fin r = .fin (1 / r) := by
  rw [show (1 : Flt) = .fin 1 from by change Flt.fin ((1 : ℕ) : ℝ) = _; simp, Flt.div_fin 1 r h]

/-- The two situations in which the sign of zero shows in `freeing_jacobian`. -/
theorem erase_unconstrainJac1 (lb ub x : SFlt) (hb : lb.erase.lt ub.erase = true) :
    ((x = negZero ∧ lb = val (.fin 0)) ∨ (ub = negZero ∧ x = val (.fin 0)) →
      (Signed.unconstrainJac1 lb ub x).erase = .ninf ∧ unconstrainJac1 lb.erase ub.erase x.erase = .pinf) ∧
    (¬ ((x = negZero ∧ lb = val (.fin 0)) ∨ (ub = negZero ∧ x = val (.fin 0))) →
      (Signed.unconstrainJac1 lb ub x).erase = unconstrainJac1 lb.erase ub.erase x.erase) := by
  constructor
  · rintro (⟨rfl, rfl⟩ | ⟨rfl, rfl⟩)
    · have e2 : (val (.fin 0)).eq (val .ninf) = false := rfl
      have e3 : (Flt.fin 0).eq .ninf = false := rfl
      have e4 : ∀ u : SFlt, (1 / (u - negZero)).erase = 1 / (u.erase - .fin 0) := by
        intro u
        rw [erase_one_div_sub, if_neg (by rintro ⟨-, h⟩; cases h)]
        rfl
      have e5 : (1 / (negZero - val (.fin 0))).erase = .ninf := by rw [erase_one_div_sub, if_pos ⟨rfl, rfl⟩]
      cases hu : ub.erase with
      | nan => rw [hu] at hb; cases hb
      | ninf => rw [hu] at hb; cases hb
      | pinf =>
        have e1 : ub.eq (val .pinf) = true := by rw [SFlt.eq, hu]; rfl
        have e1' : Flt.pinf.eq .pinf = true := rfl
        simp only [Signed.unconstrainJac1, unconstrainJac1, e1, e1', e2, e3, erase_val, erase_negZero, if_true, Bool.false_eq_true, if_false]
        exact ⟨e5, one_div_zero⟩
      | fin u =>
        have hu0 : u ≠ 0 := by
          rw [hu] at hb
          have : (0 : ℝ) < u := by simpa [erase] using hb
          exact this.ne'
        have e1 : ub.eq (val .pinf) = false := by rw [SFlt.eq, hu]; rfl
        have e1' : (Flt.fin u).eq .pinf = false := rfl
        simp only [Signed.unconstrainJac1, unconstrainJac1, e1, e1', e2, e3, erase_val, erase_negZero, Bool.false_eq_true, if_false,
          erase_add, e4, e5, hu, one_div_zero]
        have : (1 : Flt) / (.fin u - .fin 0) = .fin (1 / u) := by rw [Flt.sub_fin, sub_zero, one_div_fin hu0]
        rw [this]
        exact ⟨rfl, rfl⟩
    · have e1 : negZero.eq (val .pinf) = false := rfl
      have e1' : (Flt.fin 0).eq .pinf = false := rfl
      have e5 : (1 / (negZero - val (.fin 0))).erase = .ninf := by rw [erase_one_div_sub, if_pos ⟨rfl, rfl⟩]
      cases hl : lb.erase with
      | nan => rw [hl] at hb; cases hb
      | pinf => rw [hl] at hb; cases hb
      | ninf =>
        have e2 : lb.eq (val .ninf) = true := by rw [SFlt.eq, hl]; rfl
        have e2' : Flt.ninf.eq .ninf = true := rfl
        simp only [Signed.unconstrainJac1, unconstrainJac1, e1, e1', e2, e2', erase_val, erase_negZero, if_true, Bool.false_eq_true, if_false]
        exact ⟨e5, one_div_zero⟩
      | fin l =>
        have hl0 : 0 - l ≠ 0 := by
          rw [hl] at hb
          have : l < (0 : ℝ) := by simpa [erase] using hb
          linarith
        have e2 : lb.eq (val .ninf) = false := by rw [SFlt.eq, hl]; rfl
        have e2' : (Flt.fin l).eq .ninf = false := rfl
        have e4 : (1 / (val (.fin 0) - lb)).erase = 1 / (.fin 0 - .fin l) := by
          rw [erase_one_div_sub, if_neg (by rintro ⟨h, -⟩; cases h), hl]
          rfl
        simp only [Signed.unconstrainJac1, unconstrainJac1, e1, e1', e2, e2', erase_val, erase_negZero, Bool.false_eq_true, if_false,
          erase_add, e4, e5, one_div_zero]
        have : (1 : Flt) / (.fin 0 - .fin l) = .fin (1 / (0 - l)) := by rw [Flt.sub_fin, one_div_fin hl0]
        rw [this]
        exact ⟨rfl, rfl⟩
  · intro hn
    have h1 : ¬ (x = negZero ∧ lb = val (.fin 0)) := fun h => hn (.inl h)
    have h2 : ¬ (ub = negZero ∧ x = val (.fin 0)) := fun h => hn (.inr h)
    have e1 : (1 / (x - lb)).erase = 1 / (x.erase - lb.erase) := by rw [erase_one_div_sub, if_neg h1]
    have e2 : (1 / (ub - x)).erase = 1 / (ub.erase - x.erase) := by rw [erase_one_div_sub, if_neg h2]
    exact bound_cases (T := fun lb ub => Signed.unconstrainJac1 lb ub x) (t := fun lb ub => unconstrainJac1 lb ub x.erase) rfl rfl rfl e1 e2
      (by rw [erase_add, e1, e2])

theorem abs_unconstrainJac1 (lb ub x : SFlt) (hb : lb.erase.lt ub.erase = true) :
    (Signed.unconstrainJac1 lb ub x).erase.abs = (unconstrainJac1 lb.erase ub.erase x.erase).abs := by
  obtain ⟨h1, h2⟩ := erase_unconstrainJac1 lb ub x hb
  by_cases h : (x = negZero ∧ lb = val (.fin 0)) ∨ (ub = negZero ∧ x = val (.fin 0))
  · obtain ⟨a, b⟩ := h1 h
    rw [a, b]
    rfl
  · rw [h2 h]

theorem erase_logAbsDetFreeing (lb ub : SFlt) (a : NDArray SFlt) (hb : lb.erase.lt ub.erase = true) :
    (Signed.logAbsDetFreeing lb ub a).erase = Numeric.logAbsDetFreeing lb.erase ub.erase (a.map erase) := by
  have := fun x => abs_unconstrainJac1 lb ub x hb
  simp only [Signed.logAbsDetFreeing, Signed.freeingDiagonal, Numeric.logAbsDetFreeing, erase_sum, List.map_map, Function.comp_def, erase_log, erase_abs,
    NDArray.map, this]

theorem erase_unfreeingDiagonal (lb ub : SFlt) (a : NDArray SFlt) :
    (Signed.unfreeingDiagonal lb ub a).map erase = (((a.map erase).data.map (unconstrain1 lb.erase ub.erase)).map (constrainJac1 lb.erase ub.erase)) := by
  simp only [Signed.unfreeingDiagonal, NDArray.map, List.map_map, Function.comp_def, erase_constrainJac1, erase_unconstrain1]

theorem erase_logAbsDetUnfreeing (lb ub : SFlt) (a : NDArray SFlt) :
    (Signed.logAbsDetUnfreeing lb ub a).erase = Numeric.logAbsDetUnfreeing lb.erase ub.erase (a.map erase) := by
  rw [Numeric.logAbsDetUnfreeing, ← erase_unfreeingDiagonal]
  simp only [Signed.logAbsDetUnfreeing, erase_sum, List.map_map, Function.comp_def, erase_log, erase_abs]

theorem erase_constrainSimplexJacobian (p : List SFlt) : (Signed.constrainSimplexJacobian p).map erase = Simplex.constrainJacobian (p.map erase) := by
  rw [Signed.constrainSimplexJacobian, map_ofFn2, Simplex.constrainJacobian]
  simp only [erase_add, erase_mul, erase_ite, erase_getD, erase_val, erase_zero, List.length_map]

/-! ### Where the sign of zero comes from -/

theorem signed_eq_negZero {b : Bool} {f : Flt} (h : signed b f = negZero) : f = .fin 0 ∧ b = true := by
  by_contra hn
  rw [signed, if_neg hn] at h
  cases h

theorem add_eq_negZero {x y : SFlt} (h : x + y = negZero) : x.signbit = true ∧ y.signbit = true := by
  have := (signed_eq_negZero h).2
  simpa using this

/-- The values that `fold` makes show no sign of zero in `freeing_jacobian`. -/
theorem constrain1_no_sign (lb ub y : SFlt) (hb : lb.erase.lt ub.erase = true) :
    ¬ ((Signed.constrain1 lb ub y = negZero ∧ lb = val (.fin 0)) ∨ (ub = negZero ∧ Signed.constrain1 lb ub y = val (.fin 0))) := by
  rintro (⟨h, rfl⟩ | ⟨rfl, h⟩)
  · have e2 : (val (.fin 0)).eq (val .ninf) = false := rfl
    simp only [Signed.constrain1, e2, Bool.false_eq_true, if_false] at h
    have : signbit (val (.fin 0)) = true := by
      split at h
      · exact (add_eq_negZero h).2
      · exact (add_eq_negZero h).2
    rw [signbit_val_zero] at this
    cases this
  · have e1 : negZero.eq (val .pinf) = false := rfl
    simp only [Signed.constrain1, e1, Bool.false_eq_true, if_false] at h
    split at h
    · have hz : (SFlt.val (.fin (-1)) * y).exp.erase = .fin 0 := by
        have h' := congrArg erase h
        rw [erase_sub, erase_negZero, erase_val] at h'
        cases hf : (SFlt.val (.fin (-1)) * y).exp.erase with
        | fin r =>
          rw [hf, Flt.sub_fin, Flt.fin.injEq] at h'
          have : r = 0 := by linarith
          rw [this]
        | pinf => rw [hf] at h'; cases h'
        | ninf => rw [hf] at h'; cases h'
        | nan => rw [hf] at h'; cases h'
      have he : (SFlt.val (.fin (-1)) * y).exp = val (.fin 0) := congrArg val hz
      rw [he, (sub_eq_negZero_iff negZero (val (.fin 0))).2 ⟨rfl, rfl⟩] at h
      cases h
    · rename_i hl
      have h' : constrain1 lb.erase (.fin 0) y.erase = .fin 0 := by
        have h2 := erase_constrain1 lb negZero y
        rw [show Signed.constrain1 lb negZero y = val (.fin 0) from by
          simp only [Signed.constrain1, e1, Bool.false_eq_true, if_false, hl]; exact h] at h2
        exact h2.symm
      rw [erase_negZero] at hb
      cases hle : lb.erase with
      | nan => rw [hle] at hb; cases hb
      | pinf => rw [hle] at hb; cases hb
      | ninf => exact hl (by rw [SFlt.eq, hle]; rfl)
      | fin l =>
        rw [hle] at hb h'
        have hl0 : l < 0 := by simpa using hb
        have f1 : (Flt.fin 0).eq .pinf = false := rfl
        have f2 : (Flt.fin l).eq .ninf = false := rfl
        simp only [constrain1, f1, f2, Bool.false_eq_true, if_false] at h'
        have hone : (1 : Flt) = .fin 1 := by change Flt.fin ((1 : ℕ) : ℝ) = _; simp
        rw [hone] at h'
        cases hy : y.erase with
        | nan => rw [hy] at h'; simp only [Flt.exp] at h'; cases h'
        | pinf =>
          rw [hy] at h'
          simp only [Flt.exp, Flt.sub_fin] at h'
          have hs : Flt.fin (0 - l) * Flt.pinf = .pinf := by
            show Flt.scaleInf (0 - l) = _
            rw [Flt.scaleInf, if_pos (by linarith)]
          rw [hs] at h'
          cases h'
        | ninf =>
          rw [hy] at h'
          simp only [Flt.exp, Flt.sub_fin, Flt.mul_fin, Flt.add_fin] at h'
          rw [Flt.div_fin _ _ (by norm_num), Flt.add_fin, Flt.fin.injEq] at h'
          have : l = 0 := by simpa using h'
          linarith
        | fin t =>
          rw [hy] at h'
          have hp := Real.exp_pos t
          simp only [Flt.exp, Flt.sub_fin, Flt.mul_fin, Flt.add_fin] at h'
          rw [Flt.div_fin _ _ (by positivity), Flt.add_fin, Flt.fin.injEq] at h'
          have h3 : 1 + Real.exp t ≠ 0 := by positivity
          field_simp at h'
          nlinarith

/-- The values that `fold` makes of a simplex contain no `-0.0`. -/
theorem constrainSimplexRow_pos (M : MaxChoice) (row : List SFlt) : negZero ∉ Signed.constrainSimplexRow M row := by
  rw [Signed.constrainSimplexRow]
  intro h
  obtain ⟨x, -, hx⟩ := List.mem_map.1 h
  cases hx

end Paragami
