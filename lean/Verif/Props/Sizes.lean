import Verif.Model.Sizes
import Verif.Proofs.PSDFree
import Verif.Proofs.Basic
import Verif.Proofs.Built
import Verif.Proofs.Regroup

/-! # C126: sizes and shapes that are not natural numbers -/

namespace Paragami
open NDArray Pattern

/-! ### Matrices -/

theorem trunc_floor {x : ℝ} (h : -1 < x) : Sizes.trunc x = (⌊x⌋₊ : ℤ) := by
  unfold Sizes.trunc
  by_cases h0 : 0 ≤ x
  · rw [if_pos h0, Int.natCast_floor_eq_floor h0]
  · rw [if_neg h0, Nat.floor_of_nonpos (by linarith)]
    have : ⌈x⌉ = 0 := by rw [Int.ceil_eq_iff]; push_cast; constructor <;> linarith
    simpa using this

theorem trunc_pyInt {size : PyNum} {x : ℝ} (hx : size.toFlt = .fin x) (h : -1 < x) : Sizes.pyInt size = .ok (⌊x⌋₊ : ℤ) := by
  cases size with
  | int i =>
    simp only [PyNum.toFlt, Flt.fin.injEq] at hx
    subst hx
    have : -1 < i := by exact_mod_cast h
    have h0 : 0 ≤ i := by omega
    simp only [Sizes.pyInt, Except.ok.injEq]
    rw [Int.natCast_floor_eq_floor (by exact_mod_cast h0), Int.floor_intCast]
  | flt f =>
    simp only [PyNum.toFlt] at hx
    subst hx
    simp only [Sizes.pyInt, Except.ok.injEq]
    exact trunc_floor h

theorem reshapeZ_nat {α : Type} [Elem α] (a : NDArray α) {s : List ℤ} (h : ∀ d ∈ s, 0 ≤ d) : Sizes.reshapeZ a s = a.reshape (s.map Int.toNat) := by
  have : s.filter (· < 0) = [] := by
    rw [List.filter_eq_nil_iff]
    intro d hd
    simpa using h d hd
  simp only [Sizes.reshapeZ, this]

theorem toNat_ofNat (s : List ℕ) : (s.map Int.ofNat).map Int.toNat = s := by
  rw [List.map_map]
  conv_rhs => rw [← List.map_id s]
  exact List.map_congr_left fun d _ => by simp

theorem ofNat_toNat {s : List ℤ} (h : ∀ d ∈ s, 0 ≤ d) : (s.map Int.toNat).map Int.ofNat = s := by
  rw [List.map_map]
  conv_rhs => rw [← List.map_id s]
  refine List.map_congr_left fun d hd => ?_
  simpa using h d hd

theorem sameShape_nat {α : Type} [Elem α] (a : NDArray α) {s : List ℤ} (h : ∀ d ∈ s, 0 ≤ d) : Sizes.sameShape a s ↔ a.shape = s.map Int.toNat := by
  unfold Sizes.sameShape
  constructor
  · rintro rfl
    exact (toNat_ofNat _).symm
  · intro e
    rw [e, ofNat_toNat h]

theorem not_sameShape {α : Type} [Elem α] (a : NDArray α) {s : List ℤ} (h : ∃ d ∈ s, d < 0) : ¬ Sizes.sameShape a s := by
  rintro rfl
  obtain ⟨d, hd, hn⟩ := h
  obtain ⟨n, _, rfl⟩ := List.mem_map.mp hd
  exact absurd hn (by simp)

theorem prod_ofNat (s : List ℕ) : (s.map Int.ofNat).prod = (s.prod : ℤ) := by
  induction s with
  | nil => rfl
  | cons a s ih => simp [ih]

theorem prod_filter_neg (s : List ℤ) : s.prod = (s.filter (· < 0)).prod * (s.filter (0 ≤ ·)).prod := by
  induction s with
  | nil => rfl
  | cons d s ih =>
    by_cases h : d < 0
    · have h' : ¬ 0 ≤ d := by omega
      simp [h, h', ih, mul_assoc]
    · have h' : 0 ≤ d := by omega
      simp [h, h', ih]; ring

/-- No array has been reshaped to a shape with a negative entry and a non-negative product. -/
theorem reshapeZ_neg {α : Type} [Elem α] (a : NDArray α) {s : List ℤ} (h : ∃ d ∈ s, d < 0) (hp : 0 ≤ s.prod) :
    ∃ msg, Sizes.reshapeZ a s = .error (.valueError msg) := by
  have hmem : ∀ d ∈ s.filter (· < 0), d < 0 := fun d hd => by simpa using (List.mem_filter.mp hd).2
  have hpr := prod_filter_neg s
  unfold Sizes.reshapeZ
  split
  · next e =>
    obtain ⟨d, hd, hn⟩ := h
    have : d ∈ s.filter (· < 0) := List.mem_filter.mpr ⟨hd, by simpa using hn⟩
    rw [e] at this
    exact absurd this (List.not_mem_nil)
  · next d e =>
    have hd : d < 0 := hmem d (by rw [e]; exact List.mem_singleton.mpr rfl)
    have hk : (s.filter (0 ≤ ·)).prod = (((s.filter (0 ≤ ·)).map Int.toNat).prod : ℤ) := by
      rw [← prod_ofNat, ofNat_toNat]
      intro d hd
      simpa using (List.mem_filter.mp hd).2
    rw [e, hk] at hpr
    simp only [List.prod_singleton] at hpr
    rw [hpr] at hp
    have : ((s.filter (0 ≤ ·)).map Int.toNat).prod = 0 := by
      by_contra h0
      have : 0 < (((s.filter (0 ≤ ·)).map Int.toNat).prod : ℤ) := by exact_mod_cast Nat.pos_of_ne_zero h0
      nlinarith
    simp only [this, true_or, if_true]
    exact ⟨_, rfl⟩
  · exact ⟨_, rfl⟩

/-! ### Matrices of any size -/

/-- The pattern object made by the constructor for a size above `-1`. -/
theorem mkPSD_ok {size lb : PyNum} {x : ℝ} (hx : size.toFlt = .fin x) (h : -1 < x) (hlb : lb.toFlt.lt 0 = false) (dv : Bool) (fd : Option Bool) :
    Sizes.mkPSD size lb dv fd = .ok ⟨⌊x⌋₊, ⌊x * (x + 1) / 2⌋₊, lb, dv, fd⟩ := by
  have h1 : size.toFlt * (size.toFlt + 1) / 2 = .fin (x * (x + 1) / 2) := by
    rw [hx]
    simp only [Flt.ofNat_fin, Flt.add_fin, Flt.mul_fin]
    rw [Flt.div_fin _ _ (by norm_num)]
    norm_num
  have h2 : -1 < x * (x + 1) / 2 := by nlinarith [sq_nonneg (2 * x + 1)]
  have h3 : Sizes.pyInt (.flt (.fin (x * (x + 1) / 2))) = .ok (⌊x * (x + 1) / 2⌋₊ : ℤ) := congrArg Except.ok (trunc_floor h2)
  simp only [Sizes.mkPSD, trunc_pyInt hx h, hlb, h1, h3, bind, Except.bind, pure, Except.pure, Bool.false_eq_true, if_false]

theorem nonneg_pair (n : ℕ) : ∀ d ∈ [(n : ℤ), (n : ℤ)], 0 ≤ d := by
  intro d hd
  simp only [List.mem_cons, List.not_mem_nil, or_false, or_self] at hd
  omega

theorem psd_validate {α : Type} [Elem α] (n : ℕ) (f : ℤ) (lb : PyNum) (dv : Bool) (fd : Option Bool) (a : NDArray α) (vv : Option Bool) :
    (Sizes.PSDPat.mk n f lb dv fd).validate a vv = PSD.validate n lb.toFlt dv a vv := by
  unfold Sizes.PSDPat.validate
  by_cases h : a.shape = [n, n]
  · rw [if_pos ((sameShape_nat a (nonneg_pair n)).mpr (by simpa using h))]
    simp
  · rw [if_neg (fun e => h (by simpa using (sameShape_nat a (nonneg_pair n)).mp e))]
    simp [PSD.validate, PSD.validateShape, h]

theorem psd_foldNF {α : Type} [Elem α] (n : ℕ) (f : ℤ) (lb : PyNum) (dv : Bool) (fd : Option Bool) (x : NDArray α) (vv : Option Bool) :
    (Sizes.PSDPat.mk n f lb dv fd).foldNF x vv = PSD.foldNF n lb.toFlt dv x vv := by
  have h1 : ((x.atleast1d.size : ℤ) ≠ (Sizes.PSDPat.mk n f lb dv fd).flatLen false) = (x.atleast1d.size ≠ n ^ 2) := by
    simp only [Sizes.PSDPat.flatLen, Bool.false_eq_true, if_false, ne_eq, eq_iff_iff, not_iff_not]
    exact_mod_cast Iff.rfl
  simp only [Sizes.PSDPat.foldNF, PSD.foldNF, psd_validate, reshapeZ_nat _ (nonneg_pair n), List.map_cons, List.map_nil, Int.toNat_natCast, h1]

theorem psd_flattenNF {α : Type} [Elem α] (n : ℕ) (f : ℤ) (lb : PyNum) (dv : Bool) (fd : Option Bool) (a : NDArray α) (vv : Option Bool) :
    (Sizes.PSDPat.mk n f lb dv fd).flattenNF a vv = PSD.flattenNF n lb.toFlt dv a vv := by
  simp only [Sizes.PSDPat.flattenNF, PSD.flattenNF, psd_validate]

theorem psd_flattenFree (n : ℕ) (f : ℤ) (lb : PyNum) (dv : Bool) (fd : Option Bool) (a : NDArray Flt) (vv : Option Bool) :
    (Sizes.PSDPat.mk n f lb dv fd).flattenFree a vv = PSD.flattenFree n lb.toFlt dv a vv := by
  simp only [Sizes.PSDPat.flattenFree, PSD.flattenFree, psd_validate, Int.toNat_natCast]

/-- `fold(free=True)` looks at the free length only. -/
theorem psd_foldFree {p : Sizes.PSDPat} {m : ℕ} (h : p.freeLen = tri m) (x : NDArray Flt) : p.foldFree x = PSD.foldFree m p.lb.toFlt x := by
  have h1 : ((x.atleast1d.size : ℤ) ≠ p.flatLen true) = (x.atleast1d.size ≠ m * (m + 1) / 2) := by
    simp only [Sizes.PSDPat.flatLen, if_true, h, ne_eq, eq_iff_iff, not_iff_not, tri]
    exact_mod_cast Iff.rfl
  simp only [Sizes.PSDPat.foldFree, PSD.foldFree, h1]

theorem psd_foldFree_error {p : Sizes.PSDPat} (h : ∀ m : ℕ, p.freeLen ≠ tri m) (x : NDArray Flt) :
    ∃ msg, p.foldFree x = .error (.valueError msg) := by
  simp only [Sizes.PSDPat.foldFree, bind, Except.bind, throw, throwThe, MonadExceptOf.throw]
  split
  · exact ⟨_, rfl⟩
  · split
    · exact ⟨_, rfl⟩
    · next e =>
      have hs : (x.atleast1d.size : ℤ) = p.freeLen := by
        by_contra hne
        simp [Sizes.PSDPat.flatLen, hne] at e
      have : ¬ matSize x.atleast1d.size * (matSize x.atleast1d.size + 1) = 2 * x.atleast1d.size := by
        rw [matSize_check]
        rintro ⟨n, hn⟩
        exact h n (by rw [← hs, hn])
      simp only [unpackPosdef, unvectorizeLd, bind, Except.bind, ne_eq, this, not_false_eq_true, if_true]
      exact ⟨_, rfl⟩

theorem floor_tri {x : ℝ} (h : -1 < x) :
    (x * (x + 1) < ⌊x⌋₊ * (⌊x⌋₊ + 1) + 2 → ⌊x * (x + 1) / 2⌋₊ = tri ⌊x⌋₊) ∧
      (⌊x⌋₊ * (⌊x⌋₊ + 1) + 2 ≤ x * (x + 1) → tri ⌊x⌋₊ < ⌊x * (x + 1) / 2⌋₊ ∧ ⌊x * (x + 1) / 2⌋₊ < tri (⌊x⌋₊ + 1)) := by
  have ht : (2 : ℝ) * tri ⌊x⌋₊ = ⌊x⌋₊ * (⌊x⌋₊ + 1) := by exact_mod_cast two_mul_tri ⌊x⌋₊
  have ht' : (2 : ℝ) * tri (⌊x⌋₊ + 1) = (⌊x⌋₊ + 1) * (⌊x⌋₊ + 1 + 1) := by exact_mod_cast two_mul_tri (⌊x⌋₊ + 1)
  have hlt := Nat.lt_floor_add_one x
  constructor
  · intro hx
    by_cases h0 : 0 ≤ x
    · have hle := Nat.floor_le h0
      rw [Nat.floor_eq_iff (by positivity)]
      have : (0 : ℝ) ≤ ⌊x⌋₊ := Nat.cast_nonneg _
      constructor <;> nlinarith
    · have : ⌊x⌋₊ = 0 := Nat.floor_of_nonpos (by linarith)
      rw [this, Nat.floor_of_nonpos (by nlinarith)]
      rfl
  · intro hx
    have h0 : 0 ≤ x := by
      by_contra h0
      have : (0 : ℝ) ≤ ⌊x⌋₊ := Nat.cast_nonneg _
      nlinarith
    constructor
    · rw [← Nat.succ_le_iff, Nat.le_floor_iff (by positivity)]
      push_cast
      linarith
    · rw [Nat.floor_lt (by positivity)]
      have : (0 : ℝ) ≤ ⌊x⌋₊ := Nat.cast_nonneg _
      nlinarith

theorem tri_strictMono : StrictMono tri := strictMono_nat_of_lt_succ fun n => by rw [tri_succ]; omega

theorem ne_tri {n m k : ℕ} (h1 : tri n < k) (h2 : k < tri (n + 1)) : k ≠ tri m := by
  rintro rfl
  have := tri_strictMono.lt_iff_lt.mp h1
  have := tri_strictMono.lt_iff_lt.mp h2
  omega

theorem psd_flattenFree_size {n : ℕ} {lb : Flt} {dv : Bool} {a y : NDArray Flt} {vv : Option Bool} (h : PSD.flattenFree n lb dv a vv = .ok y) :
    y.size = tri n := by
  unfold PSD.flattenFree at h
  obtain ⟨r, h1, h2⟩ := bind_ok h
  clear h
  simp only [bind, Except.bind, throw, throwThe, MonadExceptOf.throw] at h2
  split at h2
  · cases h2
  · unfold packPosdef at h2
    obtain ⟨c, _, h4⟩ := bind_ok h2
    unfold logDiag at h4
    rw [vectorizeLd_ofFn2] at h4
    cases h4
    simp [size, vec, length_trilIndices]

/-- **C126.** `PSDSymmetricMatrixPattern(size)` with any number `size` above -1: folding and flattening of unconstrained values, flattening to
free values, validation, `empty` and the flat length are those of the pattern of size `int(size)`. -/
theorem C126_psd {size lb : PyNum} {x : ℝ} (hx : size.toFlt = .fin x) (h : -1 < x) (hlb : lb.toFlt.lt 0 = false) (dv : Bool) (fd : Option Bool) :
    ∃ p, Sizes.mkPSD size lb dv fd = .ok p ∧ Pattern.mkPSD ⌊x⌋₊ lb dv fd = .ok (.psd ⌊x⌋₊ lb dv fd) ∧
      p.flatLen false = (Pattern.psd ⌊x⌋₊ lb dv fd).flatLen false ∧
      (∀ a vv, p.validate a vv = (Pattern.psd ⌊x⌋₊ lb dv fd).validate (α := Flt) (.arr a) vv) ∧
      (∀ y vv, (p.fold y (some false) vv).map Val.arr = (Pattern.psd ⌊x⌋₊ lb dv fd).fold y (some false) vv) ∧
      (∀ a free vv, p.flatten a free vv = (Pattern.psd ⌊x⌋₊ lb dv fd).flatten (.arr a) free vv) ∧
      p.empty.map Val.arr = (Pattern.psd ⌊x⌋₊ lb dv fd).empty := by
  refine ⟨_, mkPSD_ok hx h hlb dv fd, by rw [Pattern.mkPSD, hlb]; rfl, ?_, ?_, ?_, ?_, ?_⟩
  · simp [Sizes.PSDPat.flatLen, Pattern.flatLen]
  · intro a vv
    rw [psd_validate]
    rfl
  · intro y vv
    simp only [Sizes.PSDPat.fold, Pattern.fold, freeWithDefault, bind, Except.bind, Bool.false_eq_true, if_false, psd_foldNF, Pattern.foldNF]
    cases PSD.foldNF ⌊x⌋₊ lb.toFlt dv y vv <;> rfl
  · intro a free vv
    simp only [Sizes.PSDPat.flatten, Pattern.flatten, psd_flattenNF, psd_flattenFree, Pattern.flattenNF, Pattern.flattenFree, freeDefault, Val.asArr]
    rfl
  · have : ¬ ((⌊x⌋₊ : ℕ) : ℤ) < 0 := by omega
    simp only [Sizes.PSDPat.empty, this, if_false, Int.toNat_natCast]
    rfl

/-- **C126.** The free length is not computed from `int(size)`.  It is right, and so are `fold`, `flat_indices` and `flat_names`, exactly when
`size * (size + 1)` is less than two above the product for `int(size)`.  Otherwise it is too large, no array at all can be folded with
`free=True`, and the length of what `flatten(free=True)` returns is not `flat_length(free=True)`. -/
theorem C126_free {size lb : PyNum} {x : ℝ} (hx : size.toFlt = .fin x) (h : -1 < x) {dv : Bool} {fd : Option Bool}
    {p : Sizes.PSDPat} (hp : Sizes.mkPSD size lb dv fd = .ok p) :
    (x * (x + 1) < ⌊x⌋₊ * (⌊x⌋₊ + 1) + 2 →
      p.flatLen true = (Pattern.psd ⌊x⌋₊ lb dv fd).flatLen true ∧
      (∀ y free vv, (p.fold y free vv).map Val.arr = (Pattern.psd ⌊x⌋₊ lb dv fd).fold y free vv) ∧
      (∀ mask free, p.flatIndices mask free = (Pattern.psd ⌊x⌋₊ lb dv fd).flatIndices (.arr mask) free) ∧
      (∀ free delim, p.flatNames free = (Pattern.psd ⌊x⌋₊ lb dv fd).flatNames free delim)) ∧
    (⌊x⌋₊ * (⌊x⌋₊ + 1) + 2 ≤ x * (x + 1) →
      ((Pattern.psd ⌊x⌋₊ lb dv fd).flatLen true : ℤ) < p.flatLen true ∧
      (∀ y vv, ∃ msg, p.fold y (some true) vv = .error (.valueError msg)) ∧
      (∀ a vv y, p.flatten a (some true) vv = .ok y → (y.size : ℤ) ≠ p.flatLen true)) := by
  have hlb : lb.toFlt.lt 0 = false := by
    by_contra hne
    simp only [Bool.not_eq_false] at hne
    unfold Sizes.mkPSD at hp
    obtain ⟨r, -, h2⟩ := bind_ok hp
    rw [hne] at h2
    cases h2
  rw [mkPSD_ok hx h hlb] at hp
  cases hp
  obtain ⟨h1, h2⟩ := floor_tri h
  constructor
  · intro hc
    have ht := h1 hc
    have hf : (⌊x * (x + 1) / 2⌋₊ : ℤ) = (tri ⌊x⌋₊ : ℤ) := by exact_mod_cast ht
    refine ⟨?_, ?_, ?_, ?_⟩
    · simp only [Sizes.PSDPat.flatLen, Pattern.flatLen, if_true, hf, tri]
    · intro y free vv
      simp only [Sizes.PSDPat.fold, Pattern.fold, freeDefault]
      cases freeWithDefault fd free with
      | error e => rfl
      | ok b =>
        cases b
        · simp only [bind, Except.bind, Bool.false_eq_true, if_false, psd_foldNF, Pattern.foldNF]
          cases PSD.foldNF ⌊x⌋₊ lb.toFlt dv y vv <;> rfl
        · simp only [bind, Except.bind, if_true]
          rw [psd_foldFree hf]
          simp only [Pattern.foldFree, bind, Except.bind]
          cases PSD.foldFree ⌊x⌋₊ lb.toFlt y <;> rfl
    · intro mask free
      have h3 : (Sizes.PSDPat.mk ⌊x⌋₊ ⌊x * (x + 1) / 2⌋₊ lb dv fd).flatLen true = ((⌊x⌋₊ * (⌊x⌋₊ + 1) / 2 : ℕ) : ℤ) := by
        simp only [Sizes.PSDPat.flatLen, if_true, hf, tri]
      have h4 : (Sizes.PSDPat.mk ⌊x⌋₊ ⌊x * (x + 1) / 2⌋₊ lb dv fd).flatLen false = ((⌊x⌋₊ ^ 2 : ℕ) : ℤ) := by
        simp [Sizes.PSDPat.flatLen]
      simp only [Sizes.PSDPat.flatIndices, Pattern.flatIndices, psd_foldNF, h3, h4, Int.toNat_natCast, freeDefault, flatIdx, Val.asArr]
      by_cases hm : (!mask.data.any id) = true
      · rw [if_pos hm, if_pos hm]
      · rw [if_neg hm, if_neg hm]
        cases freeWithDefault fd free with
        | error e => rfl
        | ok b =>
          have hm' : mask.data.any id = true := by simpa using hm
          by_cases hs : mask.shape = [⌊x⌋₊, ⌊x⌋₊]
          · have hs' := (sameShape_nat mask (nonneg_pair ⌊x⌋₊)).mpr (by simpa using hs)
            cases b <;>
              simp [bind, Except.bind, PSD.flatIndices, hm', PSD.validateShape, hs, hs', throw, throwThe, MonadExceptOf.throw, pure, Except.pure,
                PSD.foldNF, PSD.validate]
          · have hs' : ¬ Sizes.sameShape mask [(⌊x⌋₊ : ℤ), (⌊x⌋₊ : ℤ)] := fun e => hs (by simpa using (sameShape_nat mask (nonneg_pair ⌊x⌋₊)).mp e)
            simp [bind, Except.bind, PSD.flatIndices, hm', PSD.validateShape, hs, hs', throw, throwThe, MonadExceptOf.throw]
    · intro free delim
      simp only [Sizes.PSDPat.flatNames, Pattern.flatNames]
      cases freeWithDefault fd free with
      | error e => rfl
      | ok b =>
        have h3 : ((Sizes.PSDPat.mk ⌊x⌋₊ ⌊x * (x + 1) / 2⌋₊ lb dv fd).flatLen b).toNat = (Pattern.psd ⌊x⌋₊ lb dv fd).flatLen b := by
          cases b
          · have : ((⌊x⌋₊ : ℤ) ^ 2).toNat = ⌊x⌋₊ ^ 2 := by rw [← Nat.cast_pow, Int.toNat_natCast]
            simpa [Sizes.PSDPat.flatLen, Pattern.flatLen] using this
          · simp only [Sizes.PSDPat.flatLen, Pattern.flatLen, if_true, Int.toNat_natCast, ht, tri]
        simp only [bind, Except.bind, h3]
  · intro hc
    obtain ⟨h3, h4⟩ := h2 hc
    have hne : ∀ m : ℕ, (Sizes.PSDPat.mk ⌊x⌋₊ ⌊x * (x + 1) / 2⌋₊ lb dv fd).freeLen ≠ tri m := fun m e => ne_tri h3 h4 (Int.ofNat.inj e)
    refine ⟨?_, ?_, ?_⟩
    · simp only [Sizes.PSDPat.flatLen, Pattern.flatLen, if_true]
      exact_mod_cast h3
    · intro y vv
      exact psd_foldFree_error hne y
    · intro a vv y hy
      have : PSD.flattenFree ⌊x⌋₊ lb.toFlt dv a vv = .ok y := by
        rw [← psd_flattenFree]
        exact hy
      rw [psd_flattenFree_size this]
      exact fun e => hne _ e.symm

theorem Flt.eq_refl_of_ne_nan {f : Flt} (h : f ≠ .nan) : f.eq f = true := by
  cases f <;> simp_all [Flt.eq]

/-- **C126.** Such a pattern is `==` to the pattern that `to_json` and `get_pattern_from_json` make of it, whose free length is the right one:
for the sizes with the wrong free length, patterns that are `==` fold different vectors, and a round trip through JSON changes what `fold` does. -/
theorem C126_json {size lb : PyNum} {x : ℝ} (hx : size.toFlt = .fin x) (h : -1 < x) (hlb : lb.toFlt ≠ .nan) {dv : Bool} {fd : Option Bool}
    {p : Sizes.PSDPat} (hp : Sizes.mkPSD size lb dv fd = .ok p) :
    ∃ q, p.reload = .ok q ∧ p.EqPy q ∧ q.EqPy p ∧ q.size = ⌊x⌋₊ ∧
      (∀ y vv, (q.fold y (some true) vv).map Val.arr = (Pattern.psd ⌊x⌋₊ lb dv none).fold y (some true) vv) ∧
      (⌊x⌋₊ * (⌊x⌋₊ + 1) + 2 ≤ x * (x + 1) → q.flatLen true < p.flatLen true ∧
        ∃ y, (∃ v, q.fold y (some true) = .ok v) ∧ ∃ e, p.fold y (some true) = .error e) := by
  have hlb' : lb.toFlt.lt 0 = false := by
    by_contra hne
    simp only [Bool.not_eq_false] at hne
    unfold Sizes.mkPSD at hp
    obtain ⟨r, -, h2⟩ := bind_ok hp
    rw [hne] at h2
    cases h2
  have hp0 := hp
  rw [mkPSD_ok hx h hlb'] at hp
  cases hp
  have hn : (-1 : ℝ) < (⌊x⌋₊ : ℝ) := by have : (0 : ℝ) ≤ ⌊x⌋₊ := Nat.cast_nonneg _; linarith
  have hi : (PyNum.int (⌊x⌋₊ : ℤ)).toFlt = .fin (⌊x⌋₊ : ℝ) := by simp [PyNum.toFlt]
  have hq := mkPSD_ok hi hn hlb' dv none
  have hfree := (C126_free hi hn hq).1 (by rw [Nat.floor_natCast]; linarith)
  rw [Nat.floor_natCast] at hfree hq
  refine ⟨_, hq, ⟨rfl, Flt.eq_refl_of_ne_nan hlb, rfl⟩, ⟨rfl, Flt.eq_refl_of_ne_nan hlb, rfl⟩, rfl, fun y vv => hfree.2.1 y (some true) vv, ?_⟩
  intro hc
  have hbad := (C126_free hx h hp0).2 hc
  refine ⟨?_, vec (List.replicate (tri ⌊x⌋₊) 0), ?_, ?_⟩
  · rw [hfree.1]
    exact hbad.1
  · have h1 : (Pattern.psd ⌊x⌋₊ lb dv none).fold (vec (List.replicate (tri ⌊x⌋₊) 0)) (some true) = _ := (hfree.2.1 _ _ _).symm
    have h2 : ∃ v, PSD.foldFree ⌊x⌋₊ lb.toFlt (vec (List.replicate (tri ⌊x⌋₊) 0)) = .ok v := by
      have hu : unvectorizeLd (vec (List.replicate (tri ⌊x⌋₊) (0 : Flt))) = _ := unvectorizeLd_vec (n := ⌊x⌋₊) (by simp)
      simp only [PSD.foldFree, atleast1d, vec, ndim, NDArray.size, List.length_replicate, List.length_singleton, unpackPosdef, bind, Except.bind, tri] at hu ⊢
      simp only [hu]
      simp [pure, Except.pure]
    obtain ⟨v, hv⟩ := h2
    refine ⟨v, ?_⟩
    have h3 : (Pattern.psd ⌊x⌋₊ lb dv none).fold (vec (List.replicate (tri ⌊x⌋₊) 0)) (some true) = .ok (.arr v) := by
      simp only [Pattern.fold, freeWithDefault, bind, Except.bind, if_true, Pattern.foldFree, hv, pure, Except.pure]
    rw [h3] at h1
    revert h1
    generalize Sizes.PSDPat.fold _ _ _ _ = r
    cases r <;> simp [Except.map]
    exact fun e => e.symm
  · obtain ⟨msg, hm⟩ := hbad.2.1 (vec (List.replicate (tri ⌊x⌋₊) 0)) none
    exact ⟨_, hm⟩

/-- **C126.** A size of -1 or less is accepted too.  Every value is then rejected by `validate_folded`, and `flatten`, `fold(free=False)` and
`empty` raise `ValueError` for all arguments; but for the integer `-(m + 1)`, `fold(free=True)` is that of the pattern of size `m`. -/
theorem C126_negative {size lb : PyNum} {x : ℝ} (hx : size.toFlt = .fin x) (h : x ≤ -1) (hlb : lb.toFlt.lt 0 = false) (dv : Bool) (fd : Option Bool) :
    ∃ p, Sizes.mkPSD size lb dv fd = .ok p ∧ p.size < 0 ∧
      (∀ (a : NDArray Flt) vv, ∃ msg, p.validate a vv = .error (.valueError msg)) ∧
      (∀ (y : NDArray Flt) vv, ∃ msg, p.fold y (some false) vv = .error (.valueError msg)) ∧
      (∀ (a : NDArray Flt) free vv, ∃ msg, p.flatten a (some free) vv = .error (.valueError msg)) ∧
      (∃ msg, p.empty = .error (.valueError msg)) ∧
      (∀ m : ℕ, x = -((m : ℝ) + 1) → ∀ y vv, (p.fold y (some true) vv).map Val.arr = (Pattern.psd m lb dv fd).fold y (some true) vv) := by
  have hs : ∃ n : ℤ, n < 0 ∧ Sizes.pyInt size = .ok n := by
    cases size with
    | int i =>
      simp only [PyNum.toFlt, Flt.fin.injEq] at hx
      subst hx
      exact ⟨i, by have : i ≤ -1 := by exact_mod_cast h
                   omega, rfl⟩
    | flt f =>
      simp only [PyNum.toFlt] at hx
      subst hx
      refine ⟨_, ?_, rfl⟩
      unfold Sizes.trunc
      rw [if_neg (by linarith)]
      have : ⌈x⌉ ≤ -1 := Int.ceil_le.mpr (by push_cast; exact h)
      omega
  obtain ⟨n, hn, hsz⟩ := hs
  have h1 : size.toFlt * (size.toFlt + 1) / 2 = .fin (x * (x + 1) / 2) := by
    rw [hx]
    simp only [Flt.ofNat_fin, Flt.add_fin, Flt.mul_fin]
    rw [Flt.div_fin _ _ (by norm_num)]
    norm_num
  have h2 : -1 < x * (x + 1) / 2 := by nlinarith
  have h3 : Sizes.pyInt (.flt (.fin (x * (x + 1) / 2))) = .ok (⌊x * (x + 1) / 2⌋₊ : ℤ) := congrArg Except.ok (trunc_floor h2)
  have hp : Sizes.mkPSD size lb dv fd = .ok ⟨n, ⌊x * (x + 1) / 2⌋₊, lb, dv, fd⟩ := by
    simp only [Sizes.mkPSD, hsz, hlb, h1, h3, bind, Except.bind, pure, Except.pure, Bool.false_eq_true, if_false]
  have hneg : ∃ d ∈ [n, n], d < 0 := ⟨n, List.mem_cons_self, hn⟩
  have hval : ∀ (a : NDArray Flt) vv, ∃ msg, (Sizes.PSDPat.mk n ⌊x * (x + 1) / 2⌋₊ lb dv fd).validate a vv = .error (.valueError msg) := by
    intro a vv
    unfold Sizes.PSDPat.validate
    rw [if_neg (not_sameShape a hneg)]
    exact ⟨_, rfl⟩
  refine ⟨_, hp, hn, hval, ?_, ?_, ?_, ?_⟩
  · intro y vv
    have hr : ∀ a : NDArray Flt, ∃ msg, Sizes.reshapeZ a [n, n] = .error (.valueError msg) := fun a => reshapeZ_neg a hneg (by simp; nlinarith)
    obtain ⟨m, hm⟩ := hr y.atleast1d
    simp only [Sizes.PSDPat.fold, freeWithDefault, bind, Except.bind, Bool.false_eq_true, if_false, Sizes.PSDPat.foldNF, hm, throw, throwThe,
      MonadExceptOf.throw]
    split
    · exact ⟨_, rfl⟩
    · split <;> exact ⟨_, rfl⟩
  · intro a free vv
    obtain ⟨msg, hm⟩ := hval a vv
    refine ⟨msg, ?_⟩
    cases free <;>
      simp only [Sizes.PSDPat.flatten, freeWithDefault, bind, Except.bind, Bool.false_eq_true, if_false, if_true, Sizes.PSDPat.flattenNF,
        Sizes.PSDPat.flattenFree, hm]
  · unfold Sizes.PSDPat.empty
    rw [if_pos hn]
    exact ⟨_, rfl⟩
  · intro m hm y vv
    have ht : (2 : ℝ) * tri m = m * (m + 1) := by exact_mod_cast two_mul_tri m
    have hf : x * (x + 1) / 2 = (tri m : ℝ) := by rw [hm]; linarith
    simp only [Sizes.PSDPat.fold, Pattern.fold, freeWithDefault, bind, Except.bind, if_true]
    rw [psd_foldFree (m := m) (by rw [hf, Nat.floor_natCast])]
    simp only [Pattern.foldFree, bind, Except.bind]
    cases PSD.foldFree m lb.toFlt y <;> rfl

/-- **C126.** A size that is infinite or NaN is refused, with `OverflowError` and `ValueError`, for matrices and for simplexes. -/
theorem C126_nonfinite (f : Flt) (hf : ∀ r, f ≠ .fin r) (lb : PyNum) (shape : List ℤ) (dv : Bool) (fd : Option Bool) :
    (f ≠ .nan → Sizes.mkPSD (.flt f) lb dv fd = .error .overflowError ∧ Sizes.mkSimplex (.flt f) shape dv fd = .error .overflowError) ∧
      (f = .nan → (∃ msg, Sizes.mkPSD (.flt f) lb dv fd = .error (.valueError msg)) ∧
        ∃ msg, Sizes.mkSimplex (.flt f) shape dv fd = .error (.valueError msg)) := by
  cases f with
  | fin r => exact absurd rfl (hf r)
  | nan => exact ⟨fun h => absurd rfl h, fun _ => ⟨⟨_, rfl⟩, ⟨_, rfl⟩⟩⟩
  | pinf => exact ⟨fun _ => ⟨rfl, rfl⟩, fun h => nomatch h⟩
  | ninf => exact ⟨fun _ => ⟨rfl, rfl⟩, fun h => nomatch h⟩

/-! ### Shapes with negative entries -/

/-- **C126.** `NumericArrayPattern` refuses every shape with a negative entry: the constructor folds two vectors, and raises when the bounds are
wrong or, for good bounds, because no vector can be reshaped to such a shape.  For other shapes it is the constructor of `Model/Pattern.lean`. -/
theorem C126_numeric (cls : NumCls) (shape : List ℤ) (lb ub : PyNum) (dv : Bool) (fd : Option Bool) :
    ((∀ d ∈ shape, 0 ≤ d) → Sizes.mkNumeric cls shape lb ub dv fd = Pattern.mkNumeric cls (shape.map Int.toNat) lb ub dv fd) ∧
      ((∃ d ∈ shape, d < 0) →
        (∃ msg, Sizes.mkNumeric cls shape lb ub dv fd = .error (.valueError msg)) ∨
          Sizes.mkNumeric cls shape lb ub dv fd = .error .assertionError ∧ (lb.toFlt = .nan ∨ ub.toFlt = .nan)) := by
  constructor
  · intro h
    have hp : shape.prod = ((shape.map Int.toNat).prod : ℤ) := by rw [← prod_ofNat, ofNat_toNat h]
    have hs : ∀ a : NDArray ℕ, Sizes.sameShape a shape ↔ a.shape = shape.map Int.toNat := fun a => sameShape_nat a h
    simp only [Sizes.mkNumeric, Pattern.mkNumeric, hp, Int.toNat_natCast, reshapeZ_nat _ h, hs]
    generalize shape.map Int.toNat = s
    have hr : (vec (List.range s.prod)).reshape s = .ok ⟨s, List.range s.prod⟩ := by simp [NDArray.reshape, vec]
    have h0 : (vec (List.range s.prod)).size = s.prod := by simp [vec, NDArray.size]
    have h2 : (vec (List.range s.prod)).atleast1d = vec (List.range s.prod) := rfl
    have h3 : (vec (List.range s.prod)).ndim = 1 := rfl
    simp only [Pattern.foldNF, Pattern.flatLen, Numeric.foldNF, hr, h0, h2, h3, Numeric.validate, Numeric.validateShape, Option.getD]
    cases s <;> simp [atleast1d, bind, Except.bind, throw, throwThe, MonadExceptOf.throw, pure, Except.pure]
  · intro h
    simp only [Sizes.mkNumeric, bind, Except.bind, throw, throwThe, MonadExceptOf.throw]
    split
    · next e =>
      right
      refine ⟨rfl, .inl ?_⟩
      revert e
      cases lb.toFlt <;> simp [Flt.ge, Flt.le, Flt.lt, Flt.eq]
    · split
      · next e =>
        right
        refine ⟨rfl, .inr ?_⟩
        revert e
        cases ub.toFlt <;> simp [Flt.le, Flt.lt, Flt.eq]
      · left
        split
        · exact ⟨_, rfl⟩
        · split
          · exact ⟨_, rfl⟩
          · next e =>
            have hp : 0 ≤ shape.prod := by
              rw [ne_eq, not_not] at e
              rw [← e]
              exact Int.natCast_nonneg _
            obtain ⟨m, hm⟩ := reshapeZ_neg (vec (List.range shape.prod.toNat)) h hp
            exact ⟨m, by rw [hm]⟩

theorem simplex_shape_neg {k : ℕ} {s : List ℤ} {dv : Bool} {fd : Option Bool} (h : ∃ d ∈ s, d < 0) (free : Bool) :
    ∃ d ∈ (Sizes.SimplexPat.mk k s dv fd).shape free, d < 0 := by
  obtain ⟨d, hd, hn⟩ := h
  exact ⟨d, List.mem_append_left _ hd, hn⟩

/-- **C126.** `SimplexArrayPattern` truncates `simplex_size`, and takes any shape.  For a shape without negative entries the methods are those
of the pattern with the truncated size; with a negative entry, every value is rejected by `validate_folded`, and `flatten`, `empty` and `fold`
of vectors, of any lengths and in both parameterizations, raise `ValueError`. -/
theorem C126_simplex {size : PyNum} {x : ℝ} (hx : size.toFlt = .fin x) (h : -1 < x) (shape : List ℤ) (dv : Bool) (fd : Option Bool) :
    (x < 2 → ∃ msg, Sizes.mkSimplex size shape dv fd = .error (.valueError msg)) ∧
    (2 ≤ x → ∃ p, Sizes.mkSimplex size shape dv fd = .ok p ∧
      ((∀ d ∈ shape, 0 ≤ d) →
        (∀ free, p.flatLen free = (Pattern.simplex ⌊x⌋₊ (shape.map Int.toNat) dv fd).flatLen free) ∧
        (∀ a vv, p.validate a vv = (Pattern.simplex ⌊x⌋₊ (shape.map Int.toNat) dv fd).validate (α := Flt) (.arr a) vv) ∧
        (∀ y free vv, (p.fold y free vv).map Val.arr = (Pattern.simplex ⌊x⌋₊ (shape.map Int.toNat) dv fd).fold y free vv) ∧
        (∀ a free vv, p.flatten a free vv = (Pattern.simplex ⌊x⌋₊ (shape.map Int.toNat) dv fd).flatten (.arr a) free vv) ∧
        p.empty.map Val.arr = (Pattern.simplex ⌊x⌋₊ (shape.map Int.toNat) dv fd).empty) ∧
      ((∃ d ∈ shape, d < 0) →
        (∀ (a : NDArray Flt) vv, ∃ msg, p.validate a vv = .error (.valueError msg)) ∧
        (∀ (y : List Flt) free vv, ∃ msg, p.fold (vec y) (some free) vv = .error (.valueError msg)) ∧
        (∀ (a : NDArray Flt) free vv, ∃ msg, p.flatten a (some free) vv = .error (.valueError msg)) ∧
        ∃ msg, p.empty = .error (.valueError msg))) := by
  have hi := trunc_pyInt hx h
  constructor
  · intro h2
    have : (⌊x⌋₊ : ℤ) ≤ 1 := by
      have : ⌊x⌋₊ < 2 := (Nat.floor_lt' (by norm_num)).mpr (by exact_mod_cast h2)
      omega
    simp only [Sizes.mkSimplex, hi, bind, Except.bind, this, if_true, throw, throwThe, MonadExceptOf.throw]
    exact ⟨_, rfl⟩
  · intro h2
    have hk : 2 ≤ ⌊x⌋₊ := (Nat.le_floor_iff' (by norm_num)).mpr (by exact_mod_cast h2)
    have hk' : ¬ (⌊x⌋₊ : ℤ) ≤ 1 := by omega
    have hp : Sizes.mkSimplex size shape dv fd = .ok ⟨⌊x⌋₊, shape, dv, fd⟩ := by
      simp only [Sizes.mkSimplex, hi, bind, Except.bind, hk', if_false, pure, Except.pure, Int.toNat_natCast]
    refine ⟨_, hp, ?_, ?_⟩
    · intro hs
      have hsh : ∀ free, (Sizes.SimplexPat.mk ⌊x⌋₊ shape dv fd).shape free =
          ((shape.map Int.toNat) ++ [if free then ⌊x⌋₊ - 1 else ⌊x⌋₊]).map Int.ofNat := by
        intro free
        rw [List.map_append, ofNat_toNat hs]
        cases free
        · rfl
        · simp only [Sizes.SimplexPat.shape, if_true, List.map_cons, List.map_nil]
          congr 2
          simp only [Int.ofNat_eq_natCast]
          omega
      have hnn : ∀ free, ∀ d ∈ (Sizes.SimplexPat.mk ⌊x⌋₊ shape dv fd).shape free, 0 ≤ d := by
        intro free d hd
        rw [hsh] at hd
        obtain ⟨n, _, rfl⟩ := List.mem_map.mp hd
        exact Int.natCast_nonneg _
      have hnat : ∀ free, ((Sizes.SimplexPat.mk ⌊x⌋₊ shape dv fd).shape free).map Int.toNat =
          (shape.map Int.toNat) ++ [if free then ⌊x⌋₊ - 1 else ⌊x⌋₊] := fun free => by rw [hsh, toNat_ofNat]
      have hlen : ∀ free, (Sizes.SimplexPat.mk ⌊x⌋₊ shape dv fd).flatLen free =
          (((shape.map Int.toNat) ++ [if free then ⌊x⌋₊ - 1 else ⌊x⌋₊]).prod : ℤ) := fun free => by
        rw [Sizes.SimplexPat.flatLen, hsh, prod_ofNat]
      have hval : ∀ (a : NDArray Flt) vv, (Sizes.SimplexPat.mk ⌊x⌋₊ shape dv fd).validate a vv =
          Simplex.validate ⌊x⌋₊ (shape.map Int.toNat) dv a vv := by
        intro a vv
        unfold Sizes.SimplexPat.validate
        by_cases hsa : a.shape = shape.map Int.toNat ++ [⌊x⌋₊]
        · rw [if_pos ((sameShape_nat a (hnn false)).mpr (by rw [hnat]; simpa using hsa))]
        · rw [if_neg (fun e => hsa (by simpa [hnat] using (sameShape_nat a (hnn false)).mp e))]
          simp [Simplex.validate, Simplex.validateShape, hsa]
      have hcast : ∀ (n : ℕ) free, ((n : ℤ) ≠ (Sizes.SimplexPat.mk ⌊x⌋₊ shape dv fd).flatLen free) =
          (n ≠ ((shape.map Int.toNat) ++ [if free then ⌊x⌋₊ - 1 else ⌊x⌋₊]).prod) := by
        intro n free
        rw [hlen]
        simp only [ne_eq, Nat.cast_inj]
      have hfn : ∀ (y : NDArray Flt) vv, (Sizes.SimplexPat.mk ⌊x⌋₊ shape dv fd).foldNF y vv =
          Simplex.foldNF ⌊x⌋₊ (shape.map Int.toNat) dv y vv := by
        intro y vv
        simp only [Sizes.SimplexPat.foldNF, Simplex.foldNF, hval, reshapeZ_nat _ (hnn false), hnat, hcast, Bool.false_eq_true, if_false]
      have hff : ∀ (y : NDArray Flt), (Sizes.SimplexPat.mk ⌊x⌋₊ shape dv fd).foldFree y = Simplex.foldFree ⌊x⌋₊ (shape.map Int.toNat) y := by
        intro y
        simp only [Sizes.SimplexPat.foldFree, Simplex.foldFree, reshapeZ_nat _ (hnn true), hnat, hcast, if_true, NDArray.reshape]
        cases y.len with
        | error e => rfl
        | ok n =>
          simp only [bind, Except.bind, throw, throwThe, MonadExceptOf.throw]
          split
          · rfl
          · split
            · rfl
            · next e =>
              split at e
              · cases e
                simp
              · cases e
      refine ⟨?_, ?_, ?_, ?_, ?_⟩
      · intro free
        rw [hlen]
        cases free <;> rfl
      · intro a vv
        rw [hval]
        rfl
      · intro y free vv
        simp only [Sizes.SimplexPat.fold, Pattern.fold, freeDefault, hfn, hff]
        cases freeWithDefault fd free with
        | error e => rfl
        | ok b =>
          cases b
          · simp only [bind, Except.bind, Bool.false_eq_true, if_false, Pattern.foldNF]
            cases Simplex.foldNF ⌊x⌋₊ (shape.map Int.toNat) dv y vv <;> rfl
          · simp only [bind, Except.bind, if_true, Pattern.foldFree]
            cases Simplex.foldFree ⌊x⌋₊ (shape.map Int.toNat) y <;> rfl
      · intro a free vv
        simp only [Sizes.SimplexPat.flatten, Pattern.flatten, Sizes.SimplexPat.flattenNF, Sizes.SimplexPat.flattenFree, hval, Pattern.flattenNF,
          Pattern.flattenFree, freeDefault, Val.asArr]
        rfl
      · have : ¬ ∃ d ∈ (Sizes.SimplexPat.mk ⌊x⌋₊ shape dv fd).shape false, d < 0 := by
          rintro ⟨d, hd, hn⟩
          exact absurd (hnn false d hd) (by omega)
        simp only [Sizes.SimplexPat.empty, this, if_false, hnat]
        rfl
    · intro hs
      have hval : ∀ (a : NDArray Flt) vv, ∃ msg, (Sizes.SimplexPat.mk ⌊x⌋₊ shape dv fd).validate a vv = .error (.valueError msg) := by
        intro a vv
        unfold Sizes.SimplexPat.validate
        rw [if_neg (not_sameShape a (simplex_shape_neg hs false))]
        exact ⟨_, rfl⟩
      refine ⟨hval, ?_, ?_, ?_⟩
      · intro y free vv
        cases free <;>
          simp only [Sizes.SimplexPat.fold, freeWithDefault, bind, Except.bind, Bool.false_eq_true, if_false, if_true, Sizes.SimplexPat.foldNF,
            Sizes.SimplexPat.foldFree, throw, throwThe, MonadExceptOf.throw, NDArray.len, vec]
        all_goals
          split
          · exact ⟨_, rfl⟩
          · next e =>
            rw [ne_eq, not_not] at e
            have hp := Int.natCast_nonneg y.length
            rw [e] at hp
            obtain ⟨m, hm⟩ := reshapeZ_neg (vec y) (simplex_shape_neg hs _) hp
            exact ⟨m, by rw [vec] at hm; rw [hm]⟩
      · intro a free vv
        obtain ⟨msg, hm⟩ := hval a vv
        refine ⟨msg, ?_⟩
        cases free <;>
          simp only [Sizes.SimplexPat.flatten, freeWithDefault, bind, Except.bind, Bool.false_eq_true, if_false, if_true,
            Sizes.SimplexPat.flattenNF, Sizes.SimplexPat.flattenFree, hm]
      · unfold Sizes.SimplexPat.empty
        rw [if_pos (simplex_shape_neg hs false)]
        exact ⟨_, rfl⟩

theorem prod_zero_of_flatLen {p : Pattern} (h : p.isDict = false) (hw : p.WF) (h0 : p.flatLen true = 0) : p.shape.prod = 0 := by
  induction p using Pattern.ind (Q := fun _ => True) with
  | hnum => simpa [flatLen, Pattern.shape] using h0
  | hsim k s =>
    simp only [Pattern.WF] at hw
    simp only [flatLen, if_true, List.prod_append, List.prod_singleton, Nat.mul_eq_zero] at h0
    have : s.prod = 0 := by omega
    simp [Pattern.shape, this]
  | hpsd n =>
    have := two_mul_tri n
    simp only [flatLen, if_true] at h0
    rw [tri, h0] at this
    have : n = 0 := by
      rcases Nat.mul_eq_zero.mp this.symm with h | h <;> omega
    simp [Pattern.shape, this]
  | harr s b fd ih =>
    simp only [Pattern.WF] at hw
    simp only [flatLen, Nat.mul_eq_zero] at h0
    simp only [Pattern.shape, List.prod_append, Nat.mul_eq_zero]
    exact h0.imp id (ih hw.2.1 hw.2.2)
  | hdict => simp [isDict] at h
  | hnil => trivial
  | hcons => trivial

theorem prod_nonneg_of_flatLen {b : Pattern} (h : b.isDict = false) (hw : b.WF) {s : List ℤ} {free : Bool} (hp : 0 ≤ s.prod * (b.flatLen free : ℤ)) :
    0 ≤ (s ++ b.shape.map Int.ofNat).prod := by
  rw [List.prod_append, prod_ofNat]
  by_cases h0 : b.flatLen free = 0
  · have : b.shape.prod = 0 := by
      cases free
      · rw [← flatLen_false h hw, h0]
      · exact prod_zero_of_flatLen h hw h0
    simp [this]
  · have : (0 : ℤ) < b.flatLen free := by exact_mod_cast Nat.pos_of_ne_zero h0
    have : 0 ≤ s.prod := by nlinarith
    positivity

theorem items_neg {s : List ℤ} (h : ∃ d ∈ s, d < 0) : productRanges (s.map Int.toNat) = [] := by
  rw [← List.length_eq_zero_iff, length_productRanges, List.prod_eq_zero_iff]
  obtain ⟨d, hd, hn⟩ := h
  exact List.mem_map.mpr ⟨d, hd, Int.toNat_of_nonpos hn.le⟩

theorem empty_succeeds (p : Pattern) (hw : p.WF) (hd : p.isDict = false) : ∃ v, p.empty = .ok v := by
  induction p using Pattern.ind (Q := fun _ => True) with
  | hnum c s lb ub dv fd =>
    simp only [Pattern.WF] at hw
    simp only [Pattern.empty, inboundsValue, hw.2.2.2.2.2, if_true]
    exact ⟨_, rfl⟩
  | hsim => exact ⟨_, rfl⟩
  | hpsd => exact ⟨_, rfl⟩
  | harr s b fd ih =>
    simp only [Pattern.WF] at hw
    obtain ⟨v, hv⟩ := ih hw.2.2 hw.2.1
    obtain ⟨d, rfl, hl⟩ := empty_ok_arr b hw.2.2 hw.2.1 v hv
    exact ⟨_, empty_array_eq hv hl⟩
  | hdict => simp [isDict] at hd
  | hnil => trivial
  | hcons => trivial

theorem reshapeZ_empty {s : List ℤ} (h : ∃ d ∈ s, d < 0) {a : NDArray Flt} (ha : a.data = []) :
    (∀ e, Sizes.reshapeZ a s = .ok e ↔ e.data = [] ∧ 0 ∉ s ∧ ∃ l r d, s = l ++ d :: r ∧ d < 0 ∧ (∀ c ∈ l ++ r, 0 ≤ c) ∧
      e.shape = l.map Int.toNat ++ 0 :: r.map Int.toNat) ∧
    ∀ x, Sizes.reshapeZ a s = .error x → ∃ msg, x = .valueError msg := by
  have hk : ((s.filter (0 ≤ ·)).map Int.toNat).prod = 0 ↔ 0 ∈ s := by
    rw [List.prod_eq_zero_iff, List.mem_map]
    constructor
    · rintro ⟨d, hd, h0⟩
      obtain ⟨h1, h2⟩ := List.mem_filter.mp hd
      have : 0 ≤ d := by simpa using h2
      have : d = 0 := by omega
      rwa [← this]
    · intro h0
      exact ⟨0, List.mem_filter.mpr ⟨h0, by simp⟩, rfl⟩
  have hfilt : ∀ {l r : List ℤ} {d : ℤ}, d < 0 → (∀ c ∈ l ++ r, 0 ≤ c) → (l ++ d :: r).filter (· < 0) = [d] := by
    intro l r d hd hc
    have h1 : l.filter (· < 0) = [] := List.filter_eq_nil_iff.mpr fun c hm => by simpa using hc c (List.mem_append_left _ hm)
    have h2 : r.filter (· < 0) = [] := List.filter_eq_nil_iff.mpr fun c hm => by simpa using hc c (List.mem_append_right _ hm)
    rw [List.filter_append, h1, List.filter_cons_of_pos (by simpa using hd), h2, List.nil_append]
  have hmap : ∀ {l : List ℤ}, (∀ c ∈ l, 0 ≤ c) → (l.map fun d => if d < 0 then 0 else d.toNat) = l.map Int.toNat := fun hc =>
    List.map_congr_left fun d hd => by rw [if_neg (by have := hc d hd; omega)]
  unfold Sizes.reshapeZ
  split
  · next e =>
    obtain ⟨d, hd, hn⟩ := h
    have : d ∈ s.filter (· < 0) := List.mem_filter.mpr ⟨hd, by simpa using hn⟩
    rw [e] at this
    exact absurd this (List.not_mem_nil)
  · next d e =>
    simp only [ha, List.length_nil, Nat.zero_mod, ne_eq, not_true_eq_false, or_false, Nat.zero_div, hk]
    by_cases h0 : 0 ∈ s
    · simp [h0]
    · simp only [h0, if_false, Except.ok.injEq, not_false_eq_true, true_and, reduceCtorEq, false_imp_iff, implies_true, and_true]
      intro v
      obtain ⟨l, r, hs, hl, hd, hr⟩ := List.filter_eq_cons_iff.mp e
      have hd' : d < 0 := by simpa using hd
      have hl' : ∀ c ∈ l, 0 ≤ c := fun c hc => by simpa using hl c hc
      have hr' : ∀ c ∈ r, 0 ≤ c := fun c hc => by simpa using List.filter_eq_nil_iff.mp hr c hc
      constructor
      · rintro rfl
        refine ⟨rfl, l, r, d, hs, hd', fun c hc => (List.mem_append.mp hc).elim (hl' c) (hr' c), ?_⟩
        simp only [hs, List.map_append, List.map_cons, hd', if_true]
        rw [hmap hl', hmap hr']
      · rintro ⟨hv, l', r', d', hs', hd2, hc, hsh⟩
        obtain ⟨vs, vd⟩ := v
        simp only at hv hsh
        subst hv
        rw [hsh, hs']
        simp only [List.map_append, List.map_cons, hd2, if_true]
        rw [hmap fun c hm => hc c (List.mem_append_left _ hm), hmap fun c hm => hc c (List.mem_append_right _ hm)]
  · next hne1 hne2 =>
    constructor
    · intro e
      constructor
      · intro h; cases h
      · rintro ⟨-, -, l, r, d, hs, hd, hc, -⟩
        exact absurd (hs ▸ hfilt hd hc) (hne2 d)
    · rintro x ⟨⟩
      exact ⟨_, rfl⟩

/-- **C126.** `PatternArray` takes any array shape.  Without negative entries the methods are those of `Model/Pattern.lean`; with a negative entry
every value is invalid, and `flatten` and `fold` of all arguments raise `ValueError`.  `empty` raises too, unless there is one negative entry and
no zero in the shape of a folded value: then it returns an array without entries (the negative entry replaced by zero), which is not valid. -/
theorem C126_array {shape : List ℤ} {base : Pattern} (hb : Built base) (hd : base.isDict = false) (hs : shape ≠ []) (fd : Option Bool) :
    ∃ p, Sizes.mkArray shape base fd = .ok p ∧ p.shape = shape ++ base.shape.map Int.ofNat ∧
      ((∀ d ∈ shape, 0 ≤ d) →
        Pattern.mkArray (shape.map Int.toNat) base fd = .ok (.array (shape.map Int.toNat) base fd) ∧
        (∀ free, p.flatLen free = (Pattern.array (shape.map Int.toNat) base fd).flatLen free) ∧
        (∀ a vv, p.validate a vv = (Pattern.array (shape.map Int.toNat) base fd).validate (α := Flt) (.arr a) vv) ∧
        (∀ y free vv, (p.fold y free vv).map Val.arr = (Pattern.array (shape.map Int.toNat) base fd).fold y free vv) ∧
        (∀ a free vv, p.flatten a free vv = (Pattern.array (shape.map Int.toNat) base fd).flatten (.arr a) free vv) ∧
        p.empty.map Val.arr = (Pattern.array (shape.map Int.toNat) base fd).empty) ∧
      ((∃ d ∈ shape, d < 0) →
        (∀ (a : NDArray Flt) vv, ∃ msg, p.validate a vv = .ok (false, msg)) ∧
        (∀ (y : NDArray Flt) free vv, ∃ msg, p.fold y (some free) vv = .error (.valueError msg)) ∧
        (∀ (a : NDArray Flt) free vv, ∃ msg, p.flatten a (some free) vv = .error (.valueError msg)) ∧
        (∀ e, p.empty = .ok e ↔ e.data = [] ∧ 0 ∉ p.shape ∧ ∃ l r d, p.shape = l ++ d :: r ∧ d < 0 ∧ (∀ c ∈ l ++ r, 0 ≤ c) ∧
          e.shape = l.map Int.toNat ++ 0 :: r.map Int.toNat) ∧
        ∀ x, p.empty = .error x → ∃ msg, x = .valueError msg) := by
  have hw := hb.wf
  refine ⟨⟨shape, base, fd⟩, by simp [Sizes.mkArray, hd, hs], rfl, ?_, ?_⟩
  · intro h
    have hnn : ∀ d ∈ shape ++ base.shape.map Int.ofNat, 0 ≤ d := by
      intro d hd
      rcases List.mem_append.mp hd with hd | hd
      · exact h d hd
      · obtain ⟨n, _, rfl⟩ := List.mem_map.mp hd
        exact Int.natCast_nonneg _
    have hnat : (shape ++ base.shape.map Int.ofNat).map Int.toNat = shape.map Int.toNat ++ base.shape := by
      rw [List.map_append, toNat_ofNat]
    have hp : shape.prod = ((shape.map Int.toNat).prod : ℤ) := by rw [← prod_ofNat, ofNat_toNat h]
    have hval : ∀ (a : NDArray Flt) vv, (Sizes.ArrayPat.mk shape base fd).validate a vv =
        (Pattern.array (shape.map Int.toNat) base fd).validate (.arr a) vv := by
      intro a vv
      have h1 : (shape ++ base.shape.map Int.ofNat).length = (shape.map Int.toNat ++ base.shape).length := by simp
      simp only [Sizes.ArrayPat.validate, Pattern.validate, Val.asArr, Sizes.ArrayPat.shape, Sizes.ArrayPat.items, sameShape_nat a hnn, hnat, h1]
      rfl
    have hlen : ∀ free, (Sizes.ArrayPat.mk shape base fd).flatLen free = (((shape.map Int.toNat).prod * base.flatLen free : ℕ) : ℤ) := by
      intro free
      simp only [Sizes.ArrayPat.flatLen, hp]
      push_cast
      rfl
    have hcast : ∀ (n : ℕ) free, ((n : ℤ) ≠ (Sizes.ArrayPat.mk shape base fd).flatLen free) = (n ≠ (shape.map Int.toNat).prod * base.flatLen free) := by
      intro n free
      rw [hlen]
      simp only [ne_eq, Nat.cast_inj]
    refine ⟨by simp [Pattern.mkArray, hd, hs], fun free => by rw [hlen]; rfl, hval, ?_, ?_, ?_⟩
    · intro y free vv
      simp only [Sizes.ArrayPat.fold, Pattern.fold, freeDefault]
      cases freeWithDefault fd free with
      | error e => rfl
      | ok b =>
        have hr : ∀ a : NDArray Flt, Sizes.reshapeZ a (Sizes.ArrayPat.mk shape base fd).shape = a.reshape (shape.map Int.toNat ++ base.shape) := by
          intro a
          rw [Sizes.ArrayPat.shape, reshapeZ_nat _ hnn, hnat]
        have hfi : ∀ (f : NDArray Flt → Except Err (Val Flt)) b, (Sizes.ArrayPat.mk shape base fd).foldItems f y b =
            checkFlat y ((shape.map Int.toNat).prod * base.flatLen b) >>= fun x =>
              Pattern.foldItems f x (shape.map Int.toNat) (shape.map Int.toNat ++ base.shape) (base.flatLen b) := by
          intro f b
          simp only [Sizes.ArrayPat.foldItems, checkFlat, hcast, hr, Pattern.foldItems, Sizes.ArrayPat.items, bind, Except.bind, throw, throwThe,
            MonadExceptOf.throw, pure, Except.pure]
          split
          · rfl
          · split <;> rfl
        cases b
        · simp only [bind, Except.bind, Bool.false_eq_true, if_false, hfi, hval, Pattern.foldNF, pure, Except.pure]
          cases checkFlat y ((shape.map Int.toNat).prod * base.flatLen false) with
          | error e => rfl
          | ok x =>
            simp only
            cases Pattern.foldItems (fun sub => base.foldNF sub vv) x (shape.map Int.toNat) (shape.map Int.toNat ++ base.shape) (base.flatLen false) with
            | error e => rfl
            | ok a =>
              simp only
              cases requireValid ((Pattern.array (shape.map Int.toNat) base fd).validate (.arr a) vv) <;> rfl
        · simp only [bind, Except.bind, if_true, hfi, Pattern.foldFree, pure, Except.pure]
          cases checkFlat y ((shape.map Int.toNat).prod * base.flatLen true) with
          | error e => rfl
          | ok x =>
            simp only
            cases Pattern.foldItems (fun sub => base.foldFree sub) x (shape.map Int.toNat) (shape.map Int.toNat ++ base.shape) (base.flatLen true) <;> rfl
    · intro a free vv
      simp only [Sizes.ArrayPat.flatten, Pattern.flatten, hval, Pattern.flattenNF, Pattern.flattenFree, freeDefault, Val.asArr]
      cases freeWithDefault fd free with
      | error e => rfl
      | ok b => cases b <;> rfl
    · simp only [Sizes.ArrayPat.empty, Pattern.empty, Sizes.ArrayPat.items, Sizes.ArrayPat.shape, reshapeZ_nat _ hnn, hnat]
      obtain ⟨v, hv⟩ := empty_succeeds base hw hd
      obtain ⟨d, rfl, -⟩ := empty_ok_arr base hw hd v hv
      simp only [hv, bind, Except.bind, Val.asArr, pure, Except.pure]
      cases stack ((productRanges (shape.map Int.toNat)).map fun _ => (⟨base.shape, d⟩ : NDArray Flt)) with
      | error e => rfl
      | ok a =>
        simp only
        cases a.reshape (shape.map Int.toNat ++ base.shape) <;> rfl
  · intro h
    have hneg : ∃ d ∈ shape ++ base.shape.map Int.ofNat, d < 0 := by
      obtain ⟨d, hd, hn⟩ := h
      exact ⟨d, List.mem_append_left _ hd, hn⟩
    have hval : ∀ (a : NDArray Flt) vv, ∃ msg, (Sizes.ArrayPat.mk shape base fd).validate a vv = .ok (false, msg) := by
      intro a vv
      simp only [Sizes.ArrayPat.validate, Sizes.ArrayPat.shape, not_sameShape a hneg, not_false_eq_true, if_true, pure, Except.pure]
      split <;> exact ⟨_, rfl⟩
    have hem : (Sizes.ArrayPat.mk shape base fd).empty = Sizes.reshapeZ ⟨[0], []⟩ (shape ++ base.shape.map Int.ofNat) := by
      obtain ⟨v, hv⟩ := empty_succeeds base hw hd
      obtain ⟨d, rfl, -⟩ := empty_ok_arr base hw hd v hv
      simp only [Sizes.ArrayPat.empty, hv, Sizes.ArrayPat.items, items_neg h, List.map_nil, stack, bind, Except.bind, Val.asArr, Sizes.ArrayPat.shape]
    refine ⟨hval, ?_, ?_, ?_, ?_⟩
    · intro y free vv
      have hfold : ∀ f : NDArray Flt → Except Err (Val Flt), ∃ msg, (Sizes.ArrayPat.mk shape base fd).foldItems f y free = .error (.valueError msg) := by
        intro f
        simp only [Sizes.ArrayPat.foldItems, Sizes.ArrayPat.items, items_neg h, mapE, stack, bind, Except.bind, throw, throwThe, MonadExceptOf.throw,
          Sizes.ArrayPat.shape]
        split
        · exact ⟨_, rfl⟩
        · split
          · exact ⟨_, rfl⟩
          · next e =>
            rw [ne_eq, not_not] at e
            have hp := Int.natCast_nonneg y.atleast1d.size
            rw [e] at hp
            exact reshapeZ_neg _ hneg (prod_nonneg_of_flatLen hd hw hp)
      cases free
      · obtain ⟨m, hm⟩ := hfold (fun sub => base.foldNF sub vv)
        exact ⟨m, by simp only [Sizes.ArrayPat.fold, freeWithDefault, bind, Except.bind, Bool.false_eq_true, if_false, hm]⟩
      · obtain ⟨m, hm⟩ := hfold base.foldFree
        exact ⟨m, by simp only [Sizes.ArrayPat.fold, freeWithDefault, bind, Except.bind, if_true, hm]⟩
    · intro a free vv
      obtain ⟨msg, hm⟩ := hval a vv
      refine ⟨msg, ?_⟩
      simp only [Sizes.ArrayPat.flatten, freeWithDefault, bind, Except.bind, requireValid, hm]
      rfl
    · rw [hem]
      exact (reshapeZ_empty hneg rfl).1
    · rw [hem]
      exact (reshapeZ_empty hneg rfl).2

/-- Size 2.5: the matrices are 2 by 2 and flatten to free vectors of length three, but the free length is four, no vector can be folded, and the
pattern is `==` to the pattern of size 2. -/
example : ∃ p, Sizes.mkPSD (.flt (.fin 2.5)) (.flt (.fin 0)) true none = .ok p ∧ p.size = 2 ∧ p.flatLen true = 4 ∧ p.flatLen false = 4 ∧
    (∀ y vv, ∃ msg, p.fold y (some true) vv = .error (.valueError msg)) ∧
    ∃ q, p.reload = .ok q ∧ p.EqPy q ∧ q.flatLen true = 3 := by
  have hx : (PyNum.flt (.fin 2.5)).toFlt = .fin 2.5 := rfl
  have hf : ⌊(2.5 : ℝ)⌋₊ = 2 := by rw [Nat.floor_eq_iff (by norm_num)]; norm_num
  have hf4 : ⌊(2.5 : ℝ) * (2.5 + 1) / 2⌋₊ = 4 := by rw [Nat.floor_eq_iff (by norm_num)]; norm_num
  have hlb : (PyNum.flt (.fin 0)).toFlt.lt 0 = false := by simp [PyNum.toFlt]
  have hp := mkPSD_ok hx (by norm_num) hlb true none
  have h1 := (C126_free hx (by norm_num) hp).2 (by rw [hf]; norm_num)
  obtain ⟨q, hq1, hq2, -, hq4, hq5, -⟩ := C126_json hx (by norm_num) (by simp [PyNum.toFlt]) hp
  refine ⟨_, hp, by simp [hf], by simp [Sizes.PSDPat.flatLen, hf4], by simp [Sizes.PSDPat.flatLen, hf], h1.2.1, q, hq1, hq2, ?_⟩
  have hi : (PyNum.int (2 : ℤ)).toFlt = .fin (2 : ℝ) := by simp [PyNum.toFlt]
  have hf3 : ⌊(2 : ℝ) * (2 + 1) / 2⌋₊ = 3 := by rw [Nat.floor_eq_iff (by norm_num)]; norm_num
  have h2 := mkPSD_ok hi (by norm_num) hlb true none
  simp only [Sizes.PSDPat.reload, hf] at hq1
  rw [show ((2 : ℕ) : ℤ) = 2 from rfl, h2] at hq1
  cases hq1
  simp only [Sizes.PSDPat.flatLen, if_true, hf3]
  rfl

/-- Size -3: nothing can be flattened, and free vectors of length three fold to 2 by 2 matrices.  A simplex shape `(-1,)`: no vector folds.  A
`PatternArray` of shape `(-1,)`: `empty` returns an array of shape `(0, 2)`. -/
example : (∃ p, Sizes.mkPSD (.int (-3)) (.flt (.fin 0)) true none = .ok p ∧ (∀ a free vv, ∃ msg, p.flatten a (some free) vv = .error (.valueError msg)) ∧
      ∀ y vv, (p.fold y (some true) vv).map Val.arr = (Pattern.psd 2 (.flt (.fin 0)) true none).fold y (some true) vv) ∧
    (∃ p, Sizes.mkSimplex (.flt (.fin 3.7)) [-1] true none = .ok p ∧ ∀ y free vv, ∃ msg, p.fold (vec y) (some free) vv = .error (.valueError msg)) ∧
    (∃ p, Sizes.mkArray [-1] (.numeric .array [2] (.flt .ninf) (.flt .pinf) true none) none = .ok p ∧ p.empty = .ok ⟨[0, 2], []⟩ ∧
      ∃ msg, p.validate (α := Flt) ⟨[0, 2], []⟩ none = .ok (false, msg)) := by
  refine ⟨?_, ?_, ?_⟩
  · have hx : (PyNum.int (-3)).toFlt = .fin (-3) := by simp [PyNum.toFlt]
    obtain ⟨p, h1, -, -, -, h2, -, h3⟩ := C126_negative hx (by norm_num) (lb := .flt (.fin 0)) (by simp [PyNum.toFlt]) true none
    exact ⟨p, h1, h2, h3 2 (by norm_num)⟩
  · have hx : (PyNum.flt (.fin 3.7)).toFlt = .fin 3.7 := rfl
    obtain ⟨p, h1, -, h2⟩ := (C126_simplex hx (by norm_num) [-1] true none).2 (by norm_num)
    exact ⟨p, h1, (h2 ⟨-1, List.mem_cons_self, by norm_num⟩).2.1⟩
  · have hb : Built (.numeric .array [2] (.flt .ninf) (.flt .pinf) true none) := WF.built _ ⟨by simp, by simp, by simp, by simp [PyNum.toFlt, Flt.NotNaN],
      by simp [PyNum.toFlt, Flt.NotNaN], by simp [PyNum.toFlt, Flt.lt]⟩
    obtain ⟨p, h1, hsh, -, h2⟩ := C126_array (shape := [-1]) hb rfl (by simp) none
    obtain ⟨h3, -, -, h4, -⟩ := h2 ⟨-1, List.mem_cons_self, by norm_num⟩
    have hsh' : p.shape = [-1, 2] := by rw [hsh]; simp [Pattern.shape]
    refine ⟨p, h1, (h4 _).mpr ⟨rfl, by rw [hsh']; decide, [], [2], -1, by rw [hsh']; rfl, by norm_num, by simp, by simp⟩, h3 _ _⟩

end Paragami
