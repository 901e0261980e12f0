import Verif.Spec.RoundingClose
import Verif.Props.RoundingMatrix
import Verif.Props.RoundingSimplexTrip

/-!
# C109: how far floating point is from exact arithmetic, for whole patterns
-/

set_option linter.unusedSimpArgs false

namespace Paragami
open NDArray Pattern Flt Spec

variable {A : Arith}

/-! ### Leaves -/

theorem moderate_size {x : ℝ} (h : |x| ≤ 2 ^ (300 : ℤ)) : |x| ≤ 2 ^ (1000 : ℤ) := h.trans (Arith.small_zpow (by norm_num))

/-- One free value of a numeric pattern. -/
theorem numeric_close (hA : A.Sane) (hB : A.Accurate) {c : NumCls} {s : List Nat} {lb ub : PyNum} {dv : Bool} {fd : Option Bool}
    (hw : (Pattern.numeric c s lb ub dv fd).WF) (hm : Moderate A (.numeric c s lb ub dv fd)) {B u : ℝ} (hB2 : B ≤ 60) (hu : A.Machine (.fin u))
    (hu' : |u| ≤ B) :
    ∃ w v, constrain1A A lb.toFlt ub.toFlt (.fin u) = .fin w ∧ constrain1 lb.toFlt ub.toFlt (.fin u) = .fin v ∧
      |w - v| ≤ foldError B (.numeric c s lb ub dv fd) v := by
  simp only [Pattern.WF] at hw
  simp only [Moderate] at hm
  obtain ⟨h1, h2, h3⟩ := hm
  have hlt := hw.2.2.2.2.2
  simp only [foldError]
  generalize lb.toFlt = a at *
  generalize ub.toFlt = b at *
  cases a with
  | nan => cases b <;> simp [Flt.lt] at hlt
  | pinf => cases b <;> simp [Flt.lt] at hlt
  | ninf =>
    cases b with
    | nan => simp [Flt.lt] at hlt
    | ninf => simp [Flt.lt] at hlt
    | pinf =>
      refine ⟨u, u, by simp [constrain1A, Flt.eq], by simp [constrain1, Flt.eq], by simp⟩
    | fin b =>
      obtain ⟨hb, hb'⟩ := h2 b rfl
      have := Arith.upper_fold hA hB hb hu (moderate_size hb') (hu'.trans (by linarith))
      simpa only [← Arith.uRound_val] using this
  | fin a =>
    obtain ⟨ha, ha'⟩ := h1 a rfl
    cases b with
    | nan => simp [Flt.lt] at hlt
    | ninf => simp [Flt.lt] at hlt
    | pinf =>
      have := Arith.lower_fold hA hB ha (moderate_size ha') (hu'.trans (by linarith : B ≤ 690))
      simpa only [← Arith.uRound_val] using this
    | fin b =>
      obtain ⟨hb, hb'⟩ := h2 b rfl
      have := Arith.two_sided_fold hA hB ha hb ha' hb' (h3 a b rfl rfl) (hu'.trans hB2)
      simpa only [← Arith.uRound_val] using this

theorem lower_bound {t : List ℝ} {B : ℝ} (hB : 0 ≤ B) (h : ∀ u ∈ t, |u| ≤ B) (i j : ℕ) : |lower t i j| ≤ B := by
  unfold lower
  rw [List.getD]
  cases h' : t[i * (i + 1) / 2 + j]? with
  | none => simpa using hB
  | some x => simpa using h x (List.mem_of_getElem? h')

theorem factorSize_bound {t : List ℝ} {B : ℝ} (hB : 0 ≤ B) (h : ∀ u ∈ t, |u| ≤ B) (i k : ℕ) : factorSize t i k ≤ Real.exp B + B := by
  unfold factorSize
  have hl := lower_bound hB h
  have hE := Real.exp_pos B
  split
  · linarith [hl i k]
  · split
    · have : Real.exp (lower t i i) ≤ Real.exp B := Real.exp_le_exp.mpr ((le_abs_self _).trans (hl i i))
      linarith [hl i i]
    · linarith

theorem forall₂_reals {P : ℝ → ℝ → Prop} {v w : List ℝ} (h : List.Forall₂ P v w) :
    List.Forall₂ (fun x y => ∃ v w : ℝ, x = Flt.fin v ∧ y = Flt.fin w ∧ P v w) (v.map .fin) (w.map .fin) := by
  rw [List.forall₂_map_left_iff, List.forall₂_map_right_iff]
  exact h.imp fun a b hab => ⟨a, b, rfl, rfl, hab⟩

theorem matData_len {n : ℕ} (M : Matrix (Fin n) (Fin n) ℝ) : (matData M).length = n * n := by
  have := congrArg (fun a : NDArray Flt => a.data.length) (matData_eq M)
  simp only at this
  rw [this, length_ofFn2]

theorem forall₂_ofFn2 {P : ℝ → ℝ → Prop} {n : ℕ} {M N : Matrix (Fin n) (Fin n) ℝ} (h : ∀ i j, P (M i j) (N i j)) :
    List.Forall₂ (fun x y => ∃ v w : ℝ, x = Flt.fin v ∧ y = Flt.fin w ∧ P v w) (matData M) (matData N) := by
  rw [List.forall₂_iff_get]
  refine ⟨by rw [matData_len, matData_len], fun i h1 h2 => ?_⟩
  have hi : i < n * n := by rwa [matData_len] at h1
  have hn : 0 < n := Nat.pos_of_ne_zero fun h => by simp [h] at hi
  have key : ∀ K : Matrix (Fin n) (Fin n) ℝ, ∀ h : i < (matData K).length,
      (matData K).get ⟨i, h⟩ = .fin (K ⟨i / n, Nat.div_lt_of_lt_mul hi⟩ ⟨i % n, Nat.mod_lt _ hn⟩) := by
    intro K h
    have e := congrArg NDArray.data (matData_eq K)
    have e2 := entry_ofFn2 (n := n) (m := n) (fun i j => Flt.fin (natMat K i j)) (Nat.div_lt_of_lt_mul hi) (Nat.mod_lt i hn)
    rw [← e] at e2
    simp only [entry, Nat.div_add_mod'] at e2
    rw [List.get_eq_getElem]
    rw [List.getD, List.getElem?_eq_getElem h, Option.getD_some] at e2
    rw [e2, natMat, dif_pos ⟨Nat.div_lt_of_lt_mul hi, Nat.mod_lt _ hn⟩]
  exact ⟨_, _, key M h1, key N h2, h _ _⟩

/-- A leaf. -/
theorem leaf_close (hA : A.Sane) (hB : A.Accurate) (hD : A.DotAccurate) {p : Pattern} (hw : p.WF) (hm : Moderate A p)
    (hd : p.isDict = false) (ha : ∀ s b fd, p ≠ .array s b fd) {B : ℝ} (hB1 : 1 ≤ B) (hB2 : B ≤ 60) {t : List ℝ}
    (hmach : ∀ u ∈ t, A.Machine (.fin u)) (hsz : ∀ u ∈ t, |u| ≤ B) (hl : t.length = p.flatLen true) :
    ∃ V W : List Flt, p.foldFree (vec (t.map .fin)) = .ok (.arr ⟨p.shape, V⟩) ∧ p.foldFreeA A (vec (t.map .fin)) = .ok (.arr ⟨p.shape, W⟩) ∧
      V.length = p.shape.prod ∧ List.Forall₂ (fun x y => ∃ v w : ℝ, x = .fin v ∧ y = .fin w ∧ |w - v| ≤ foldError B p v) V W := by
  have hfold : ∀ {V : Val Flt} {x}, p.fold x (some true) = .ok V → p.foldFree x = .ok V := by
    intro V x h
    rw [← Arith.exact_foldFree, C79_exact, h]
  cases p with
  | numeric c s lb ub dv fd =>
    have hl' : (t.map Flt.fin).length = s.prod := by simpa [flatLen] using hl
    obtain ⟨w, v, h1, h2, h3, h4, h5⟩ := map_near (R := fun _ v w => |w - v| ≤ foldError B (.numeric c s lb ub dv fd) v) t
      fun u hu => numeric_close hA hB hw hm hB2 (hmach u hu) (hsz u hu)
    refine ⟨v.map .fin, w.map .fin, ?_, ?_, ?_, forall₂_reals (forall₂_zip (R := fun v w => |w - v| ≤ foldError B (.numeric c s lb ub dv fd) v) h4 h5 h3)⟩
    · rw [← Arith.exact_foldFree]
      simp only [foldFreeA, numeric_foldFreeA hl', Arith.exact_constrain1, h2, bind, Except.bind, pure, Except.pure, Pattern.shape]
    · simp only [foldFreeA, numeric_foldFreeA hl', h1, bind, Except.bind, pure, Except.pure, Pattern.shape]
    · rw [List.length_map, h4]; simpa [Pattern.shape, flatLen] using hl
  | simplex k s dv fd =>
    simp only [Pattern.WF] at hw
    simp only [Moderate] at hm
    have hmk : mkSimplex k s dv fd = .ok (.simplex k s dv fd) := by
      simp only [mkSimplex]; rw [if_neg (by omega)]; simp
    have hl' : t.length = s.prod * (k - 1) := by simpa [flatLen] using hl
    obtain ⟨v, w, h1, h2, h3⟩ := C100_fold hA hB hmk (by omega) hB1 (by linarith) (l := t) (by simpa using hl') hsz
    refine ⟨v.map .fin, w.map .fin, ?_, ?_, ?_, ?_⟩
    · simpa [Pattern.shape] using hfold h1
    · simpa [Pattern.shape] using h2
    · obtain ⟨x, e1, -, -, e3, -⟩ := round_vec (A := .exact) (.simplex k s dv fd) hw (by simp [FiniteLb]) (t.map .fin) (by simpa using hl)
      obtain ⟨d, rfl, e2⟩ := e3 rfl
      rw [C79_exact, h1] at e1
      injection e1 with e1; injection e1 with e1; injection e1 with _ e1
      rw [e1, e2]
    · apply forall₂_reals
      simpa [foldError] using h3
  | psd n lb dv fd =>
    simp only [Pattern.WF] at hw
    simp only [Moderate] at hm
    obtain ⟨hn, hfin, hmb⟩ := hm
    obtain ⟨c, hc⟩ := isFin_iff.mp hfin
    obtain ⟨hcm, hc'⟩ := hmb c hc
    have hmk : mkPSD n lb dv fd = .ok (.psd n lb dv fd) := by simp only [mkPSD, hw]; rfl
    have hB0 : 0 ≤ B := by linarith
    obtain ⟨M, M', h1, h2, h3⟩ := C108_fold hA hB hD hmk hn hc hcm (moderate_size hc') (t := t) (by simpa [flatLen] using hl) hmach
      (fun i _ j _ => (lower_bound hB0 hsz i j).trans (hB2.trans (by
        calc (60:ℝ) ≤ 2 ^ (6 : ℤ) := by norm_num
          _ ≤ 2 ^ (480 : ℤ) := Arith.small_zpow (by norm_num)))) (fun i _ => (lower_bound hB0 hsz i i).trans (by linarith))
    refine ⟨matData M, matData M', hfold h1, h2, by rw [matData_len]; simp [Pattern.shape], forall₂_ofFn2 (P := fun v w => |w - v| ≤ foldError B (.psd n lb dv fd) v) fun i j => (h3 i j).trans ?_⟩
    simp only [foldError]
    have hF0 : 0 ≤ Real.exp B + B := by positivity
    have hsum : ∑ k ∈ Finset.range n, factorSize t i k * factorSize t j k ≤ n * (Real.exp B + B) ^ 2 := by
      calc ∑ k ∈ Finset.range n, factorSize t i k * factorSize t j k ≤ ∑ k ∈ Finset.range n, (Real.exp B + B) ^ 2 :=
            Finset.sum_le_sum fun k _ => by
              rw [sq]; exact mul_le_mul (factorSize_bound hB0 hsz _ _) (factorSize_bound hB0 hsz _ _) (factorSize_nonneg _ _ _) hF0
        _ = n * (Real.exp B + B) ^ 2 := by simp
    have h17 : (0:ℝ) ≤ 3 * n + 17 := by positivity
    have := mul_le_mul_of_nonneg_left hsum h17
    have hz : (0:ℝ) ≤ 2 ^ (-53 : ℤ) := (two_zpow_pos _).le
    have h6 := mul_le_mul_of_nonneg_left (add_le_add_left this |M i j|) hz
    rw [mul_assoc (3 * (n:ℝ) + 17)]
    generalize (2:ℝ) ^ (-53 : ℤ) = z at *
    generalize (n:ℝ) * 2 ^ (-1073 : ℤ) = z at *
    linarith
  | array s b fd => exact absurd rfl (ha s b fd)
  | dict es l fd => simp [isDict] at hd

/-! ### Trees -/

theorem near_arr {err : Pattern → ℝ → ℝ} {p : Pattern} (hd : p.isDict = false) {a b : NDArray Flt} : Near err p (.arr a) (.arr b) ↔
    a.shape = p.shape ∧ b.shape = p.shape ∧ a.data.length = p.shape.prod ∧
      List.Forall₂ (fun x y => ∃ v w : ℝ, x = .fin v ∧ y = .fin w ∧ |w - v| ≤ err p v) a.data b.data := by
  cases p <;> first | rfl | simp [isDict] at hd

theorem flatMap_rel {R : Flt → Flt → Prop} {f g : ℕ → List Flt} : ∀ {l : List ℕ}, (∀ i ∈ l, List.Forall₂ R (f i) (g i)) →
    List.Forall₂ R (l.flatMap f) (l.flatMap g)
  | [], _ => .nil
  | i :: l, h => by
    rw [List.flatMap_cons, List.flatMap_cons]
    exact List.rel_append (h i (by simp)) (flatMap_rel fun j hj => h j (by simp [hj]))

theorem tree_close (hA : A.Sane) (hB : A.Accurate) (hD : A.DotAccurate) {B : ℝ} (hB1 : 1 ≤ B) (hB2 : B ≤ 60) (p : Pattern) : p.WF → Moderate A p →
    ∀ t : List ℝ, (∀ u ∈ t, A.Machine (.fin u)) → (∀ u ∈ t, |u| ≤ B) → t.length = p.flatLen true →
    ∃ V W, p.foldFree (vec (t.map .fin)) = .ok V ∧ p.foldFreeA A (vec (t.map .fin)) = .ok W ∧ Near (foldError B) p V W ∧
      (p.isDict = false → ∃ v w, V = .arr ⟨p.shape, v⟩ ∧ W = .arr ⟨p.shape, w⟩ ∧ v.length = p.shape.prod) := by
  induction p using Pattern.ind (Q := fun es => WFEs es → ModerateEs A es → ∀ (t : List ℝ) (off : ℕ), (∀ u ∈ t, A.Machine (.fin u)) →
      (∀ u ∈ t, |u| ≤ B) → off + flatLenEs es true ≤ t.length →
      ∃ V W, foldFreeEs es (vec (t.map .fin)) off = .ok V ∧ foldFreeAEs A es (vec (t.map .fin)) off = .ok W ∧ NearEs (foldError B) es V W) with
  | hnum c s lb ub dv fd =>
    intro hw hm t h1 h2 h3
    obtain ⟨V, W, g1, g2, g3, g4⟩ := leaf_close hA hB hD hw hm rfl (by simp) hB1 hB2 h1 h2 h3
    exact ⟨_, _, g1, g2, (near_arr rfl).mpr ⟨rfl, rfl, g3, g4⟩, fun _ => ⟨_, _, rfl, rfl, g3⟩⟩
  | hsim k s dv fd =>
    intro hw hm t h1 h2 h3
    obtain ⟨V, W, g1, g2, g3, g4⟩ := leaf_close hA hB hD hw hm rfl (by simp) hB1 hB2 h1 h2 h3
    exact ⟨_, _, g1, g2, (near_arr rfl).mpr ⟨rfl, rfl, g3, g4⟩, fun _ => ⟨_, _, rfl, rfl, g3⟩⟩
  | hpsd n lb dv fd =>
    intro hw hm t h1 h2 h3
    obtain ⟨V, W, g1, g2, g3, g4⟩ := leaf_close hA hB hD hw hm rfl (by simp) hB1 hB2 h1 h2 h3
    exact ⟨_, _, g1, g2, (near_arr rfl).mpr ⟨rfl, rfl, g3, g4⟩, fun _ => ⟨_, _, rfl, rfl, g3⟩⟩
  | harr s b fd ih =>
    intro hw hm t h1 h2 hl
    simp only [Pattern.WF] at hw
    simp only [Moderate] at hm
    simp only [flatLen] at hl
    have hch : ∀ i, ∃ q : List Flt × List Flt, i < s.prod →
        b.foldFree (vec (chunk (b.flatLen true) (t.map .fin) i)) = .ok (.arr ⟨b.shape, q.1⟩) ∧
        b.foldFreeA A (vec (chunk (b.flatLen true) (t.map .fin) i)) = .ok (.arr ⟨b.shape, q.2⟩) ∧ q.1.length = b.shape.prod ∧
        List.Forall₂ (fun x y => ∃ v w : ℝ, x = .fin v ∧ y = .fin w ∧ |w - v| ≤ foldError B b v) q.1 q.2 := by
      intro i
      by_cases hi : i < s.prod
      · have hsub : ∀ u ∈ chunk (b.flatLen true) t i, u ∈ t := fun u hu => List.mem_of_mem_drop (List.mem_of_mem_take hu)
        obtain ⟨V, W, g1, g2, g3, g4⟩ := ih hw.2.2 hm (chunk (b.flatLen true) t i) (fun u hu => h1 u (hsub u hu)) (fun u hu => h2 u (hsub u hu))
          (length_chunk hl hi)
        obtain ⟨v, w, rfl, rfl, hv⟩ := g4 hw.2.1
        have e : (chunk (b.flatLen true) t i).map Flt.fin = chunk (b.flatLen true) (t.map .fin) i := by
          simp [chunk, List.map_take, List.map_drop]
        rw [e] at g1 g2
        exact ⟨(v, w), fun _ => ⟨g1, g2, hv, ((near_arr hw.2.1).mp g3).2.2.2⟩⟩
      · exact ⟨([], []), fun h => absurd h hi⟩
    choose q hq using hch
    have hl' : (t.map Flt.fin).length = s.prod * b.flatLen true := by rw [List.length_map, hl]
    have hv : ∀ i < s.prod, (q i).1.length = b.shape.prod := fun i hi => (hq i hi).2.2.1
    have hw' : ∀ i < s.prod, (q i).2.length = b.shape.prod := fun i hi => by rw [← (hq i hi).2.2.2.length_eq, hv i hi]
    have hlen := length_flatMap_range (fun i => (q i).1) hv
    have e1 := foldItems_eq (f := fun sub => b.foldFree sub) (x := vec (t.map .fin)) (s := s) (bshape := b.shape) (g := fun i => (q i).1)
      (fun i hi => (hq i hi).1) hv
    have e2 := foldItems_eq (f := fun sub => b.foldFreeA A sub) (x := vec (t.map .fin)) (s := s) (bshape := b.shape) (g := fun i => (q i).2)
      (fun i hi => (hq i hi).2.1) hw'
    refine ⟨.arr ⟨s ++ b.shape, (List.range s.prod).flatMap fun i => (q i).1⟩, .arr ⟨s ++ b.shape, (List.range s.prod).flatMap fun i => (q i).2⟩,
      ?_, ?_, (near_arr rfl).mpr ⟨rfl, rfl, ?_, ?_⟩, fun _ => ⟨_, _, rfl, rfl, ?_⟩⟩
    · simp only [foldFree, checkFlat_vec hl', bind, Except.bind, e1, pure, Except.pure]
    · simp only [foldFreeA, checkFlat_vec hl', bind, Except.bind, e2, pure, Except.pure]
    · simp [Pattern.shape, hlen]
    · exact flatMap_rel fun i hi => by simpa only [foldError] using (hq i (List.mem_range.mp hi)).2.2.2
    · simp [Pattern.shape, hlen]
  | hdict es ld fd ih =>
    intro hw hm t h1 h2 hl
    simp only [Pattern.WF] at hw
    simp only [Moderate] at hm
    simp only [flatLen] at hl
    have hl' : (t.map Flt.fin).length = flatLenEs es true := by rw [List.length_map, hl]
    obtain ⟨V, W, g1, g2, g3⟩ := ih hw.2 hm t 0 h1 h2 (by omega)
    refine ⟨.dict V, .dict W, ?_, ?_, g3, by simp [isDict]⟩
    · simp only [foldFree, checkFlat_vec hl', bind, Except.bind, g1, pure, Except.pure]
    · simp only [foldFreeA, checkFlat_vec hl', bind, Except.bind, g2, pure, Except.pure]
  | hnil => exact ⟨[], [], by simp [foldFreeEs], by simp [foldFreeAEs], by simp [NearEs]⟩
  | hcons k p rest ihp ihr hw hm t off h1 h2 hl =>
    simp only [WFEs] at hw
    simp only [ModerateEs] at hm
    simp only [flatLenEs] at hl
    have hsub : ∀ u ∈ (t.drop off).take (p.flatLen true), u ∈ t := fun u hu => List.mem_of_mem_drop (List.mem_of_mem_take hu)
    obtain ⟨V, W, g1, g2, g3, -⟩ := ihp hw.1 hm.1 ((t.drop off).take (p.flatLen true)) (fun u hu => h1 u (hsub u hu)) (fun u hu => h2 u (hsub u hu))
      (by simp; omega)
    obtain ⟨Vs, Ws, f1, f2, f3⟩ := ihr hw.2.2 hm.2 t (off + p.flatLen true) h1 h2 (by omega)
    rw [List.map_take, List.map_drop] at g1 g2
    refine ⟨(k, V) :: Vs, (k, W) :: Ws, ?_, ?_, ⟨rfl, rfl, g3, f3⟩⟩
    · simp only [foldFreeEs, slice, vec_data] at g1 ⊢
      simp only [g1, bind, Except.bind, f1]; rfl
    · simp only [foldFreeAEs, slice, vec_data] at g2 ⊢
      simp only [g2, bind, Except.bind, f2]; rfl

/-- **C109.**  Folding a free vector of machine numbers between `-B` and `B`, where `B` is at most 60, with any pattern whose bounds are machine numbers of
moderate size: the exact and the computed fold have the same structure and shapes, consist of real numbers, and differ entry by entry by at most
`foldError B`, a few units in the last place for numeric entries and simplexes and, for an `n` by `n` matrix, of the order of `n ** 2 * exp(2 * B)` of them. -/
theorem C109_fold (hA : A.Sane) (hB : A.Accurate) (hD : A.DotAccurate) {p : Pattern} (hp : Built p) (hm : Moderate A p) {B : ℝ} (hB1 : 1 ≤ B)
    (hB2 : B ≤ 60) {t : List ℝ} (ht : ∀ u ∈ t, A.Machine (.fin u) ∧ |u| ≤ B) (hl : p.flatLength (some true) = .ok t.length) :
    ∃ V W, p.fold (vec (t.map .fin)) (some true) = .ok V ∧ p.foldFreeA A (vec (t.map .fin)) = .ok W ∧ Near (foldError B) p V W := by
  have hl' : t.length = p.flatLen true := by
    simp only [Pattern.flatLength, freeWithDefault, bind, Except.bind, pure, Except.pure] at hl
    injection hl with hl; exact hl.symm
  obtain ⟨V, W, h1, h2, h3, -⟩ := tree_close hA hB hD hB1 hB2 p hp.wf hm t (fun u hu => (ht u hu).1) (fun u hu => (ht u hu).2) hl'
  refine ⟨V, W, ?_, h2, h3⟩
  rw [← C79_exact, Arith.exact_foldFree, h1]

/-- A dictionary of a pair of simplexes, a two by two matrix and three positive numbers, in binary64. -/
example : ∃ V W, (Pattern.dict (.cons "p" (.array [2] (.simplex 3 [1] true none) none) (.cons "m" (.psd 2 (.int 0) true none)
      (.cons "x" (.numeric .vector [3] (.int 0) (.flt .pinf) true none) .nil))) true none).fold
        (vec ([1, -1, 2, 0, 0, 3, -1, 1, 0, -20].map .fin)) (some true) = .ok V ∧
    (Pattern.dict (.cons "p" (.array [2] (.simplex 3 [1] true none) none) (.cons "m" (.psd 2 (.int 0) true none)
      (.cons "x" (.numeric .vector [3] (.int 0) (.flt .pinf) true none) .nil))) true none).foldFreeA binary64
        (vec ([1, -1, 2, 0, 0, 3, -1, 1, 0, -20].map .fin)) = .ok W ∧
    Near (foldError 20) (Pattern.dict (.cons "p" (.array [2] (.simplex 3 [1] true none) none) (.cons "m" (.psd 2 (.int 0) true none)
      (.cons "x" (.numeric .vector [3] (.int 0) (.flt .pinf) true none) .nil))) true none) V W := by
  have hz : ModerateBound binary64 (.fin 0) := by
    intro c hc; injection hc with hc; subst hc
    exact ⟨binary64_sane.zero_machine, by simp⟩
  refine C109_fold binary64_sane binary64_accurate binary64_dotAccurate (WF.built _ ?_) ?_ (by norm_num) (by norm_num) ?_ rfl
  · simp [Pattern.WF, WFEs, Entries.keys, Entries.toList, isDict, lock, PyNum.toFlt, NotNaN, lt]
  · simpa [Moderate, ModerateEs, PyNum.toFlt, IsFin, ModerateBound] using hz
  · intro u hu
    have : ∃ m : ℤ, |m| ≤ 20 ∧ u = m := by
      simp only [List.mem_cons, List.not_mem_nil, or_false] at hu
      rcases hu with rfl | rfl | rfl | rfl | rfl | rfl | rfl | rfl | rfl | rfl
      exacts [⟨1, by norm_num, by norm_num⟩, ⟨-1, by norm_num, by norm_num⟩, ⟨2, by norm_num, by norm_num⟩, ⟨0, by norm_num, by norm_num⟩,
        ⟨0, by norm_num, by norm_num⟩, ⟨3, by norm_num, by norm_num⟩, ⟨-1, by norm_num, by norm_num⟩, ⟨1, by norm_num, by norm_num⟩,
        ⟨0, by norm_num, by norm_num⟩, ⟨-20, by norm_num, by norm_num⟩]
    obtain ⟨m, h1, rfl⟩ := this
    exact ⟨binary64_int_machine (h1.trans (by norm_num)), by exact_mod_cast h1⟩

end Paragami
