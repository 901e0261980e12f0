import Verif.Props.Indices
import Verif.Props.Order
import Verif.Props.Empty
import Verif.Props.Jacobians
import Verif.Proofs.JacobianInv
import Verif.Spec.Jacobian

/-! # C85: what free flat indices mean, and masks combined entry by entry -/

namespace Paragami
open NDArray Pattern

/-! ### Exactness -/

theorem flatMap_range_inj {α : Type} {n : Nat} {f g : Nat → List α} (hl : ∀ i < n, (f i).length = (g i).length)
    (h : (List.range n).flatMap f = (List.range n).flatMap g) : ∀ i < n, f i = g i := by
  induction n with
  | zero => intro i hi; omega
  | succ n ih =>
    simp only [List.range_succ, List.flatMap_append, List.flatMap_cons, List.flatMap_nil, List.append_nil] at h
    obtain ⟨h1, h2⟩ := List.append_inj' h (hl n (by omega))
    intro i hi
    rcases Nat.lt_succ_iff_lt_or_eq.mp hi with hi | rfl
    · exact ih (fun i hi => hl i (by omega)) h1 i hi
    · exact h2

theorem maskSelect_inj {α : Type} {d d' : List α} {m : List Bool} (h : d.length = m.length) (h' : d'.length = m.length)
    (he : maskSelect d m = maskSelect d' m) : ∀ i ∈ positions m, d[i]? = d'[i]? := by
  have e : (positions m).map (d[·]?) = (positions m).map (d'[·]?) := by
    rw [maskSelect_positions d m h, maskSelect_positions d' m h', he]
  exact List.map_inj_left.mp e

theorem length_maskSelect {α : Type} {d : List α} {m : List Bool} (h : d.length = m.length) :
    (maskSelect d m).length = (positions m).length := by
  have := congrArg List.length (maskSelect_positions d m h)
  simpa using this.symm

/-- Changing one free entry of a simplex changes all its probabilities. -/
theorem softmax_change {l l' : List ℝ} {i : Nat} (hl : l.length = l'.length) (h2 : 2 ≤ l.length) (hd : ∀ j, j ≠ i → l[j]? = l'[j]?)
    (hi : l[i]? ≠ l'[i]?) {j : Nat} (hj : j < l.length) : (softmax l)[j]? ≠ (softmax l')[j]? := by
  have hil : i < l.length := by
    by_contra hn
    apply hi
    rw [List.getElem?_eq_none (by omega), List.getElem?_eq_none (by omega)]
  have hil' : i < l'.length := by omega
  have e : l = l.take i ++ l[i] :: l.drop (i + 1) := by simp
  have e' : l' = l.take i ++ l'[i] :: l.drop (i + 1) := by
    apply List.ext_getElem?
    intro q
    rcases lt_trichotomy q i with h | h | h
    · rw [List.getElem?_append_left (by simp; omega), List.getElem?_take, if_pos h, hd q (by omega)]
    · subst h
      rw [List.getElem?_append_right (by simp), List.getElem?_eq_getElem hil']
      simp [Nat.min_eq_left hil.le]
    · rw [List.getElem?_append_right (by simp; omega)]
      simp only [List.length_take, Nat.min_eq_left hil.le]
      rw [show q - i = (q - i - 1) + 1 by omega, List.getElem?_cons_succ, List.getElem?_drop, show i + 1 + (q - i - 1) = q by omega,
        hd q (by omega)]
  have hy : l[i] ≠ l'[i] := by
    intro h; apply hi
    rw [List.getElem?_eq_getElem hil, List.getElem?_eq_getElem hil', h]
  set y := l[i]
  set y' := l'[i]
  set C := ((l.take i).map Real.exp).sum + ((l.drop (i + 1)).map Real.exp).sum with hC
  have hZ : (l.map Real.exp).sum = C + Real.exp y := by
    rw [e]; simp only [List.map_append, List.map_cons, List.sum_append, List.sum_cons]
    rw [hC]; ring
  have hZ' : (l'.map Real.exp).sum = C + Real.exp y' := by
    rw [e']; simp only [List.map_append, List.map_cons, List.sum_append, List.sum_cons]
    rw [hC]; ring
  have nn : ∀ l : List ℝ, 0 ≤ (l.map Real.exp).sum := fun l =>
    List.sum_nonneg (by simp only [List.mem_map]; rintro _ ⟨z, -, rfl⟩; exact (Real.exp_pos z).le)
  have pos : ∀ l : List ℝ, l ≠ [] → 0 < (l.map Real.exp).sum := by
    rintro (_ | ⟨a, l⟩) h
    · exact absurd rfl h
    · rw [List.map_cons, List.sum_cons]; linarith [Real.exp_pos a, nn l]
  have hCpos : 0 < C := by
    by_cases h0 : i = 0
    · have : l.drop (i + 1) ≠ [] := by rw [ne_eq, List.drop_eq_nil_iff]; omega
      linarith [pos _ this, nn (l.take i)]
    · have : l.take i ≠ [] := by rw [ne_eq, List.take_eq_nil_iff]; rintro (h | h); exact h0 h; simp [h] at hil
      linarith [pos _ this, nn (l.drop (i + 1))]
  have hexp : Real.exp y ≠ Real.exp y' := fun h => hy (Real.exp_injective h)
  have p1 := Real.exp_pos y
  have p2 := Real.exp_pos y'
  have z1 : C + Real.exp y ≠ 0 := by positivity
  have z2 : C + Real.exp y' ≠ 0 := by positivity
  have hj' : j < l'.length := by omega
  simp only [softmax, List.getElem?_map, List.getElem?_eq_getElem hj, List.getElem?_eq_getElem hj', Option.map_some, ne_eq, Option.some.injEq,
    hZ, hZ']
  rw [div_eq_div_iff z1 z2]
  by_cases hji : j = i
  · subst hji
    intro h
    apply hexp
    change Real.exp y * _ = Real.exp y' * _ at h
    have : (Real.exp y - Real.exp y') * C = 0 := by linarith
    rcases mul_eq_zero.mp this with h | h
    · linarith
    · exact absurd h hCpos.ne'
  · have : l[j] = l'[j] := by
      have := hd j hji
      rwa [List.getElem?_eq_getElem hj, List.getElem?_eq_getElem hj', Option.some.injEq] at this
    rw [this]
    intro h
    have := mul_left_cancel₀ (Real.exp_pos l'[j]).ne' h
    exact hexp (by linarith)

theorem length_marked_free {p : Pattern} (hw : p.WF) (hf : p.FiniteLb) {b : Val Bool} (hb : b.WF) (hs : Spec.ShapeOk p b) {r : List ℝ}
    {v : Val Flt} (h : p.foldFree (vec (r.map .fin)) = .ok v) : (Spec.marked p b v).length = (positions (p.flat b)).length := by
  have hl := foldFree_ok_len h
  simp only [vec_data, List.length_map] at hl
  obtain ⟨w, h1, h2, h3, -⟩ := free_vec p hw hf r hl
  rw [h] at h1; cases h1
  have ha := acc_of_interior p hw hf v none h2
  have hab := (shapeOk_iff_acc p hw b).mpr hs
  rw [marked_eq p hw b v none hb h3 hab ha]
  exact length_maskSelect ((length_flat p hw v none h3 ha).trans (length_flat p hw b _ hb hab).symm)

theorem constrain1_inj {lb ub : Flt} (hl : lb.NotNaN) (hu : ub.NotNaN) (hlu : lb.lt ub = true) {y y' : ℝ}
    (h : constrain1 lb ub (.fin y) = constrain1 lb ub (.fin y')) : y = y' := by
  obtain ⟨z, hz, -⟩ := unconstrain_constrain hl hu hlu y
  rcases lt_trichotomy y y' with h' | h' | h'
  · have := constrain1_lt hl hu hlu h'
    rw [← h, hz] at this; simp at this
  · exact h'
  · have := constrain1_lt hl hu hlu h'
    rw [← h, hz] at this; simp at this

theorem free_exact (p : Pattern) (hw : p.WF) (hn : Spec.NoPSD p) : ∀ (b : Val Bool) (r r' : List ℝ) (v v' : Val Flt) (i : Nat), b.WF →
    Spec.ShapeOk p b → p.foldFree (vec (r.map .fin)) = .ok v → p.foldFree (vec (r'.map .fin)) = .ok v' →
    i ∈ positions (flatMask true p b) → (∀ j, j ≠ i → r[j]? = r'[j]?) → Spec.marked p b v = Spec.marked p b v' → r[i]? = r'[i]? := by
  revert hw hn
  induction p using Pattern.ind
    (Q := fun es => WFEs es → Spec.NoPSDEs es → es.keys.Nodup → ∀ (bs : List (String × Val Bool)) (r r' : List ℝ) (off : Nat) vs vs' (i : Nat),
      Val.WFEs bs → Spec.ShapeOkEs es bs → foldFreeEs es (vec (r.map .fin)) off = .ok vs → foldFreeEs es (vec (r'.map .fin)) off = .ok vs' →
      i ∈ positions (flatMaskEs true es bs) → (∀ j, j ≠ off + i → r[j]? = r'[j]?) →
      Spec.markedEs es bs vs = Spec.markedEs es bs vs' → r[off + i]? = r'[off + i]?) with
  | hnum c s lb ub dv fd =>
    intro hw _ b r r' v v' i hb hs h h' hi he hm
    cases b with
    | dict d => simp [Spec.ShapeOk] at hs
    | arr a =>
      simp only [Spec.ShapeOk] at hs
      simp only [foldFree] at h h'
      replace h := bind_ok h; obtain ⟨c, h1, h⟩ := h; cases h
      replace h' := bind_ok h'; obtain ⟨c', h1', h'⟩ := h'; cases h'
      rw [Numeric.foldFree_ok] at h1 h1'
      obtain ⟨_, h2, rfl⟩ := h1
      obtain ⟨_, h2', rfl⟩ := h1'
      have hl : a.data.length = s.prod := by rw [← hs, ← atleast1d_data, atleast1d_wf hb]
      rw [marked_arr rfl, marked_arr rfl] at hm
      simp only [vec_data] at h2 h2' hm
      have := maskSelect_inj (by simp at h2 ⊢; omega) (by simp at h2' ⊢; omega) hm i hi
      simp only [List.getElem?_map] at this
      simp only [List.length_map] at h2 h2'
      simp only [Pattern.WF] at hw
      by_cases hir : i < r.length
      · have hir' : i < r'.length := by omega
        rw [List.getElem?_eq_getElem hir, List.getElem?_eq_getElem hir'] at this ⊢
        simp only [Option.map_some, Option.some.injEq] at this
        rw [constrain1_inj hw.2.2.2.1 hw.2.2.2.2.1 hw.2.2.2.2.2 this]
      · rw [List.getElem?_eq_none (by omega), List.getElem?_eq_none (by omega)]
  | hsim k s dv fd =>
    intro hw _ b r r' v v' i hb hs h h' hi he hm
    cases b with
    | dict d => simp [Spec.ShapeOk] at hs
    | arr a =>
      simp only [Spec.ShapeOk] at hs
      simp only [foldFree] at h h'
      replace h := bind_ok h; obtain ⟨c, h1, h⟩ := h; cases h
      replace h' := bind_ok h'; obtain ⟨c', h1', h'⟩ := h'; cases h'
      rw [Simplex.foldFree_ok] at h1 h1'
      obtain ⟨_, h2, rfl⟩ := h1
      obtain ⟨_, h2', rfl⟩ := h1'
      have hl : a.data.length = s.prod * k := by
        have : a.data.length = a.shape.prod := hb
        rw [this, hs, List.prod_append]; simp
      have hk : 2 ≤ k := hw
      simp only [vec_data, List.length_map, List.prod_append, List.prod_cons, List.prod_nil, mul_one] at h2 h2'
      have hr : ∀ (l : List ℝ), l.length = s.prod * (k - 1) → ∀ i < s.prod,
          (constrainSimplexRow (chunk (k - 1) (l.map .fin) i)).length = k := by
        intro l hl i hi
        have := length_chunk (l := l.map Flt.fin) (by simpa using hl) hi
        simp [constrainSimplexRow, this]; omega
      have hmask : a.data = (List.range s.prod).flatMap (chunk k a.data) := (chunk_flatMap _ _ _ hl).symm
      rw [marked_arr rfl, marked_arr rfl, hmask] at hm
      change maskSelect (List.flatMap (fun i => constrainSimplexRow (chunk (k - 1) (r.map .fin) i)) _)
          (List.flatMap (fun i => chunk k a.data i) _) =
        maskSelect (List.flatMap (fun i => constrainSimplexRow (chunk (k - 1) (r'.map .fin) i)) _)
          (List.flatMap (fun i => chunk k a.data i) _) at hm
      rw [maskSelect_flatMap (k := k) _ _ (hr _ h2) (fun i hi => length_chunk hl hi),
        maskSelect_flatMap (k := k) _ _ (hr _ h2') (fun i hi => length_chunk hl hi)] at hm
      have hm := flatMap_range_inj (fun q hq => by
        rw [length_maskSelect ((hr _ h2 q hq).trans (length_chunk hl hq).symm), length_maskSelect ((hr _ h2' q hq).trans (length_chunk hl hq).symm)]) hm
      simp only [flatMask, if_true] at hi
      rw [positions_flatMap (k := k - 1) _ (fun i _ => by simp), List.mem_flatMap] at hi
      obtain ⟨q, hq, hi⟩ := hi
      have hq := List.mem_range.mp hq
      obtain ⟨j, hj, rfl⟩ := List.mem_map.mp hi
      have hany : (chunk k a.data q).any id = true := by
        by_contra hn
        simp only [Bool.not_eq_true] at hn
        rw [hn, positions_replicate_false] at hj; simp at hj
      rw [hany, positions_replicate_true, List.mem_range] at hj
      obtain ⟨x, hx, hx'⟩ := List.any_eq_true.mp hany
      obtain ⟨m, hmlt, hmx⟩ := List.getElem_of_mem hx
      have hmk : m < k := by rwa [length_chunk hl hq] at hmlt
      have hrow := maskSelect_inj ((hr _ h2 q hq).trans (length_chunk hl hq).symm) ((hr _ h2' q hq).trans (length_chunk hl hq).symm) (hm q hq) m
        (mem_positions.mpr (by rw [List.getElem?_eq_getElem hmlt, hmx]; simpa using hx'))
      rw [map_fin_chunk, map_fin_chunk, constrainSimplexRow_fin, constrainSimplexRow_fin, List.getElem?_map, List.getElem?_map] at hrow
      have hrow := Option.map_injective (fun _ _ h => Flt.fin.inj h) hrow
      by_contra hne
      have lr := length_chunk h2 hq
      have lr' := length_chunk h2' hq
      have get : ∀ (r : List ℝ) t, t < k - 1 → (chunk (k - 1) r q)[t]? = r[t + q * (k - 1)]? := by
        intro r t ht
        simp only [chunk, List.getElem?_take, List.getElem?_drop, ht, if_true]
        congr 1; ring
      refine softmax_change (i := j + 1) (by simp [lr, lr']) (by simp [lr]; omega) (fun t ht => ?_) ?_ (j := m) (by simp [lr]; omega) hrow
      · cases t with
        | zero => rfl
        | succ t =>
          simp only [List.getElem?_cons_succ]
          by_cases htk : t < k - 1
          · rw [get _ _ htk, get _ _ htk]
            exact he _ (by omega)
          · rw [List.getElem?_eq_none (by omega), List.getElem?_eq_none (by omega)]
      · simp only [List.getElem?_cons_succ]
        rw [get _ _ hj, get _ _ hj]
        exact hne
  | hpsd n lb dv fd => intro _ hn; exact absurd hn (by simp [Spec.NoPSD])
  | harr s q fd ih =>
    intro hw hn b r r' v v' i hb hs h h' hi he hm
    cases b with
    | dict d => simp [Spec.ShapeOk] at hs
    | arr a =>
      simp only [Pattern.WF] at hw
      simp only [Spec.NoPSD] at hn
      simp only [Spec.ShapeOk] at hs
      have hlen := foldFree_ok_len h
      have hlen' := foldFree_ok_len h'
      simp only [vec_data, flatLen] at hlen hlen'
      rw [foldFree_array_unfold, checkFlat_vec (by simpa [flatLen] using hlen)] at h
      rw [foldFree_array_unfold, checkFlat_vec (by simpa [flatLen] using hlen')] at h'
      replace h := bind_ok h; obtain ⟨_, e, h⟩ := h; cases e
      replace h := bind_ok h; obtain ⟨c, h1, h⟩ := h; cases h
      replace h' := bind_ok h'; obtain ⟨_, e, h'⟩ := h'; cases e
      replace h' := bind_ok h'; obtain ⟨c', h1', h'⟩ := h'; cases h'
      have hf : ∀ y b, q.foldFree y = .ok (.arr b) → b.shape = q.shape ∧ b.data.length = q.shape.prod := by
        intro y b hy
        obtain ⟨b', e, h3⟩ := fold_shape hw.2.2 hw.2.1 (vv := none) (by rw [fold_true]; exact hy)
        cases e; exact h3
      obtain ⟨g1, g2, g3⟩ := foldItems_items hf h1
      obtain ⟨g1', g2', g3'⟩ := foldItems_items hf h1'
      have hla : a.data.length = s.prod * q.shape.prod := by
        have : a.data.length = a.shape.prod := hb
        rw [this, hs, List.prod_append]
      have hlc : c.data.length = s.prod * q.shape.prod := by
        have : c.data.length = c.shape.prod := g2
        rw [this, g1, List.prod_append]
      have hlc' : c'.data.length = s.prod * q.shape.prod := by
        have : c'.data.length = c'.shape.prod := g2'
        rw [this, g1', List.prod_append]
      rw [marked_arr rfl, marked_arr rfl, ← chunk_flatMap _ _ _ hla, ← chunk_flatMap _ _ _ hlc,
        ← chunk_flatMap _ _ _ hlc', maskSelect_flatMap _ _ (fun i hi => length_chunk hlc hi) (fun i hi => length_chunk hla hi),
        maskSelect_flatMap _ _ (fun i hi => length_chunk hlc' hi) (fun i hi => length_chunk hla hi)] at hm
      have hm := flatMap_range_inj (fun t ht => by
        rw [length_maskSelect ((length_chunk hlc ht).trans (length_chunk hla ht).symm),
          length_maskSelect ((length_chunk hlc' ht).trans (length_chunk hla ht).symm)]) hm
      simp only [flatMask] at hi
      rw [positions_flatMap (k := q.flatLen true) _ (fun i hi => length_flatMask true q hw.2.2 _
        (chunk_wf hb hs hi) (shapeOk_of_shape hw.2.2 hw.2.1 _)), List.mem_flatMap] at hi
      obtain ⟨t, ht, hi⟩ := hi
      have ht := List.mem_range.mp ht
      obtain ⟨j, hj, rfl⟩ := List.mem_map.mp hi
      have hso := shapeOk_of_shape hw.2.2 hw.2.1 (chunk q.shape.prod a.data t)
      have hj' : j < q.flatLen true := by
        have := (List.mem_filter.mp hj).1
        rwa [List.mem_range, length_flatMask true q hw.2.2 _ (chunk_wf hb hs ht) hso] at this
      have get : ∀ (r : List ℝ) m, m < q.flatLen true → (chunk (q.flatLen true) r t)[m]? = r[m + t * q.flatLen true]? := by
        intro r m hm
        simp only [chunk, List.getElem?_take, List.getElem?_drop, hm, if_true]
        congr 1; ring
      have a1 := g3 t ht
      have a1' := g3' t ht
      rw [vec_data, map_fin_chunk] at a1 a1'
      have := ih hw.2.2 hn (.arr ⟨q.shape, chunk q.shape.prod a.data t⟩) _ _ _ _ j (chunk_wf hb hs ht) hso a1 a1' hj
        (fun m hmj => by
          by_cases hmq : m < q.flatLen true
          · rw [get _ _ hmq, get _ _ hmq]
            exact he _ (by omega)
          · simp [chunk, hmq])
        (by rw [marked_arr hw.2.1, marked_arr hw.2.1]; exact hm t ht)
      rwa [get _ _ hj', get _ _ hj'] at this
  | hdict es lk fd ih =>
    intro hw hn b r r' v v' i hb hs h h' hi he hm
    cases b with
    | arr a => simp [Spec.ShapeOk] at hs
    | dict bs =>
      simp only [Pattern.WF] at hw
      simp only [Spec.NoPSD] at hn
      have hlen := foldFree_ok_len h
      have hlen' := foldFree_ok_len h'
      simp only [vec_data, flatLen] at hlen hlen'
      rw [foldFree_dict_unfold, checkFlat_vec (by simpa [flatLen] using hlen)] at h
      rw [foldFree_dict_unfold, checkFlat_vec (by simpa [flatLen] using hlen')] at h'
      replace h := bind_ok h; obtain ⟨_, e, h⟩ := h; cases e
      replace h := bind_ok h; obtain ⟨c, h1, h⟩ := h; cases h
      replace h' := bind_ok h'; obtain ⟨_, e, h'⟩ := h'; cases e
      replace h' := bind_ok h'; obtain ⟨c', h1', h'⟩ := h'; cases h'
      simp only [Spec.marked] at hm
      have := ih hw.2 hn hw.1 bs r r' 0 c c' i hb hs h1 h1' (by simpa [flatMask] using hi) (by simpa using he) hm
      simpa using this
  | hnil _ _ _ bs r r' off vs vs' i _ _ _ _ hi _ _ => simp [flatMaskEs, positions_nil] at hi
  | hcons k p r ihp ihr hw hn hnd bs l l' off vs vs' i hb hs h h' hi he hm =>
    simp only [WFEs] at hw
    simp only [Spec.NoPSDEs] at hn
    obtain ⟨hk, hnd⟩ := nodup_keys_cons hnd
    simp only [Spec.ShapeOkEs] at hs
    obtain ⟨⟨b, hl, hb1⟩, hs⟩ := hs
    simp only [foldFreeEs] at h h'
    replace h := bind_ok h; obtain ⟨c, h1, h⟩ := h
    replace h := bind_ok h; obtain ⟨d, h2, h⟩ := h; cases h
    replace h' := bind_ok h'; obtain ⟨c', h1', h'⟩ := h'
    replace h' := bind_ok h'; obtain ⟨d', h2', h'⟩ := h'; cases h'
    simp only [flatMaskEs, hl, positions_append, List.mem_append] at hi
    simp only [Spec.markedEs, hl, List.lookup, beq_self_eq_true, markedEs_cons_irrel hk] at hm
    have hml := length_flatMask true p hw.1 b (WFEs_lookup hb hl) hb1
    simp only [slice, vec_data, ← List.map_drop, ← List.map_take] at h1 h1'
    have hfp := Jac.finiteLb_of_noPSD p hn.1
    obtain ⟨hm1, hm2⟩ := List.append_inj hm (by
      rw [length_marked_free hw.1 hfp (WFEs_lookup hb hl) hb1 h1, length_marked_free hw.1 hfp (WFEs_lookup hb hl) hb1 h1'])
    rcases hi with hi | hi
    · have hi' : i < p.flatLen true := by
        have := (List.mem_filter.mp hi).1
        rwa [List.mem_range, hml] at this
      have := ihp hw.1 hn.1 b _ _ c c' i (WFEs_lookup hb hl) hb1 h1 h1' hi (fun j hj => by
        simp only [List.getElem?_take, List.getElem?_drop]
        split
        · exact he _ (by omega)
        · rfl) hm1
      simpa only [List.getElem?_take, List.getElem?_drop, hi', if_true] using this
    · obtain ⟨j, hj, rfl⟩ := List.mem_map.mp hi
      have := ihr hw.2.2 hn.2 hnd bs l l' _ d d' j hb hs h2 h2' hj (fun t ht => he t (by rw [hml]; omega)) hm2
      rw [hml]
      rwa [show off + (j + p.flatLen true) = off + p.flatLen true + j by omega]

/-- **C85, free indices are exact.**  In a tree of numeric and simplex patterns, `flat_indices(mask, free=True)` lists exactly the free
coordinates a marked entry depends on: changing one listed coordinate, whatever the others are, changes a marked entry.  (C37 is the other
half.) -/
theorem C85_exact {p : Pattern} (hp : Built p) (hn : Spec.NoPSD p) {b : Val Bool} (hb : b.WF) (hs : Spec.ShapeOk p b) :
    ∃ idx, p.flatIndices b (some true) = .ok idx ∧ ∀ (r r' : List ℝ) (i : Nat) (y y' : ℝ), i ∈ idx →
      p.flatLength (some true) = .ok r.length → r[i]? = some y → r'= r.set i y' → y ≠ y' →
      ∃ v v', p.fold (vec (r.map .fin)) (some true) = .ok v ∧ p.fold (vec (r'.map .fin)) (some true) = .ok v' ∧
        Spec.marked p b v ≠ Spec.marked p b v' := by
  refine ⟨_, by rw [flatIndices_some, flatIdx_eq true p hp.wf b hb hs], fun r r' i y y' hi hr hy hr' hne => ?_⟩
  have hf := Jac.finiteLb_of_noPSD p hn
  rw [flatLength_some] at hr; injection hr with hr
  obtain ⟨v, h1, -⟩ := free_vec p hp.wf hf r hr.symm
  obtain ⟨v', h1', -⟩ := free_vec p hp.wf hf r' (by rw [hr', List.length_set, hr])
  refine ⟨v, v', by rw [fold_true]; exact h1, by rw [fold_true]; exact h1', fun hm => hne ?_⟩
  have := free_exact p hp.wf hn b r r' v v' i hb hs h1 h1' hi (fun j hj => by rw [hr', List.getElem?_set_ne (Ne.symm hj)]) hm
  have hlt : i < r.length := (List.getElem?_eq_some_iff.mp hy).1
  rw [hr', List.getElem?_set_self hlt, hy] at this
  exact Option.some.inj this

/-! ### Masks combined entry by entry -/

namespace Spec

mutual
/-- `c` is, entry by entry, `f` of `a` and `b` (where the pattern looks). -/
def Pointwise (f : Bool → Bool → Bool) : Pattern → Val Bool → Val Bool → Val Bool → Prop
  | .dict es _ _, .dict as, .dict bs, .dict cs => PointwiseEs f es as bs cs
  | _, .arr a, .arr b, .arr c => c.data = List.zipWith f a.data b.data
  | _, _, _, _ => False
/-- `Pointwise` for the members. -/
def PointwiseEs (f : Bool → Bool → Bool) : Entries → List (String × Val Bool) → List (String × Val Bool) → List (String × Val Bool) → Prop
  | .nil, _, _, _ => True
  | .cons k p r, as, bs, cs =>
    (∃ a b c, as.lookup k = some a ∧ bs.lookup k = some b ∧ cs.lookup k = some c ∧ Pointwise f p a b c) ∧ PointwiseEs f r as bs cs
end

end Spec

theorem any_zipWith_or : ∀ {l l' : List Bool}, l.length = l'.length → (List.zipWith or l l').any id = (l.any id || l'.any id)
  | [], [], _ => rfl
  | a :: l, b :: l', h => by
    simp only [List.zipWith_cons_cons, List.any_cons, any_zipWith_or (Nat.succ.inj h), id]
    cases a <;> cases b <;> simp
  | [], _ :: _, h => by simp at h
  | _ :: _, [], h => by simp at h

theorem chunk_zipWith {f : Bool → Bool → Bool} (k : Nat) (l l' : List Bool) (i : Nat) :
    chunk k (List.zipWith f l l') i = List.zipWith f (chunk k l i) (chunk k l' i) := by
  simp only [chunk, List.drop_zipWith, List.take_zipWith]

theorem zipWith_flatMap {f : Bool → Bool → Bool} {n k : Nat} (g h : Nat → List Bool) (hg : ∀ i < n, (g i).length = k)
    (hh : ∀ i < n, (h i).length = k) : List.zipWith f ((List.range n).flatMap g) ((List.range n).flatMap h) =
      (List.range n).flatMap fun i => List.zipWith f (g i) (h i) := by
  induction n with
  | zero => rfl
  | succ n ih =>
    simp only [List.range_succ, List.flatMap_append, List.flatMap_cons, List.flatMap_nil, List.append_nil]
    rw [List.zipWith_append (by rw [length_flatMap_range g (fun i hi => hg i (by omega)), length_flatMap_range h (fun i hi => hh i (by omega))]),
      ih (fun i hi => hg i (by omega)) (fun i hi => hh i (by omega))]

theorem flatMask_pointwise {f : Bool → Bool → Bool} (free : Bool) (hfree : free = true → f = or) (p : Pattern) (hw : p.WF) : ∀ a b c : Val Bool, a.WF → b.WF →
    Spec.ShapeOk p a → Spec.ShapeOk p b → Spec.ShapeOk p c → Spec.Pointwise f p a b c →
    flatMask free p c = List.zipWith f (flatMask free p a) (flatMask free p b) := by
  revert hw
  induction p using Pattern.ind
    (Q := fun es => WFEs es → ∀ as bs cs : List (String × Val Bool), Val.WFEs as → Val.WFEs bs → Spec.ShapeOkEs es as → Spec.ShapeOkEs es bs →
      Spec.ShapeOkEs es cs → Spec.PointwiseEs f es as bs cs →
      flatMaskEs free es cs = List.zipWith f (flatMaskEs free es as) (flatMaskEs free es bs)) with
  | hnum _ s lb ub dv fd =>
    intro _ a b c _ _ ha hb hc h
    cases a <;> cases b <;> cases c <;> simp_all [Spec.ShapeOk, Spec.Pointwise, flatMask]
  | hsim k s dv fd =>
    intro _ a b c wa wb ha hb hc h
    cases a <;> cases b <;> cases c <;> simp only [Spec.ShapeOk, Spec.Pointwise] at ha hb hc h
    next a b c =>
    cases free
    · simpa [flatMask] using h
    · have hl : ∀ a : NDArray Bool, a.WF → a.shape = s ++ [k] → a.data.length = s.prod * k := by
        intro a wa ha
        have : a.data.length = a.shape.prod := wa
        rw [this, ha, List.prod_append]; simp
      simp only [flatMask, if_true]
      rw [zipWith_flatMap (k := k - 1) _ _ (fun i _ => by simp) (fun i _ => by simp)]
      apply List.flatMap_congr
      intro i hi
      have hi := List.mem_range.mp hi
      rw [h, hfree rfl, chunk_zipWith, any_zipWith_or (by rw [length_chunk (hl a wa ha) hi, length_chunk (hl b wb hb) hi]), List.zipWith_replicate]
      simp
  | hpsd n lb dv fd =>
    intro _ a b c wa wb ha hb hc h
    cases a <;> cases b <;> cases c <;> simp only [Spec.ShapeOk, Spec.Pointwise] at ha hb hc h
    next a b c =>
    cases free
    · simpa [flatMask] using h
    · have : a.data.length = b.data.length := by rw [show a.data.length = _ from wa, show b.data.length = _ from wb, ha, hb]
      simp only [flatMask, if_true, h, hfree rfl, any_zipWith_or this, List.zipWith_replicate]
      simp
  | harr s q fd ih =>
    intro hw a b c wa wb ha hb hc h
    cases a <;> cases b <;> cases c <;> simp only [Spec.ShapeOk, Spec.Pointwise] at ha hb hc h
    next a b c =>
    simp only [Pattern.WF] at hw
    simp only [flatMask]
    rw [zipWith_flatMap (k := q.flatLen free) _ _
      (fun i hi => length_flatMask free q hw.2.2 _ (chunk_wf wa ha hi) (shapeOk_of_shape hw.2.2 hw.2.1 _))
      (fun i hi => length_flatMask free q hw.2.2 _ (chunk_wf wb hb hi) (shapeOk_of_shape hw.2.2 hw.2.1 _))]
    apply List.flatMap_congr
    intro i hi
    have hi := List.mem_range.mp hi
    refine ih hw.2.2 _ _ _ (chunk_wf wa ha hi) (chunk_wf wb hb hi) (shapeOk_of_shape hw.2.2 hw.2.1 _) (shapeOk_of_shape hw.2.2 hw.2.1 _)
      (shapeOk_of_shape hw.2.2 hw.2.1 _) ?_
    have hq := hw.2.1
    cases q <;> simp_all [Spec.Pointwise, isDict, chunk_zipWith]
  | hdict es lk fd ih =>
    intro hw a b c wa wb ha hb hc h
    cases a <;> cases b <;> cases c <;> simp only [Spec.ShapeOk, Spec.Pointwise] at ha hb hc h
    next a b c =>
    simp only [Pattern.WF] at hw
    simp only [flatMask]
    exact ih hw.2 a b c wa wb ha hb hc h
  | hnil => simp [flatMaskEs]
  | hcons k p r ihp ihr hw as bs cs wa wb ha hb hc h =>
    simp only [WFEs] at hw
    simp only [Spec.ShapeOkEs] at ha hb hc
    simp only [Spec.PointwiseEs] at h
    obtain ⟨⟨a, b, c, la, lb, lc, h⟩, h'⟩ := h
    obtain ⟨⟨a', la', sa⟩, ha⟩ := ha
    obtain ⟨⟨b', lb', sb⟩, hb⟩ := hb
    obtain ⟨⟨c', lc', sc⟩, hc⟩ := hc
    rw [la] at la'; cases la'
    rw [lb] at lb'; cases lb'
    rw [lc] at lc'; cases lc'
    simp only [flatMaskEs, la, lb, lc]
    rw [List.zipWith_append (by rw [length_flatMask free p hw.1 a (WFEs_lookup wa la) sa, length_flatMask free p hw.1 b (WFEs_lookup wb lb) sb]),
      ← ihp hw.1 a b c (WFEs_lookup wa la) (WFEs_lookup wb lb) sa sb sc h, ← ihr hw.2.2 as bs cs wa wb ha hb hc h']

/-- **C85, union.**  In both modes the indices of the union of two masks are the union of their indices. -/
theorem C85_union {p : Pattern} (hp : Built p) {a b c : Val Bool} (wa : a.WF) (wb : b.WF) (wc : c.WF) (sa : Spec.ShapeOk p a)
    (sb : Spec.ShapeOk p b) (sc : Spec.ShapeOk p c) (h : Spec.Pointwise or p a b c) (free : Bool) :
    ∃ ia ib ic, p.flatIndices a (some free) = .ok ia ∧ p.flatIndices b (some free) = .ok ib ∧ p.flatIndices c (some free) = .ok ic ∧
      ∀ i, i ∈ ic ↔ i ∈ ia ∨ i ∈ ib := by
  refine ⟨_, _, _, by rw [flatIndices_some, flatIdx_eq free p hp.wf a wa sa], by rw [flatIndices_some, flatIdx_eq free p hp.wf b wb sb],
    by rw [flatIndices_some, flatIdx_eq free p hp.wf c wc sc], fun i => ?_⟩
  have ha := length_flatMask free p hp.wf a wa sa
  have hb := length_flatMask free p hp.wf b wb sb
  rw [mem_positions, mem_positions, mem_positions, flatMask_pointwise free (fun _ => rfl) p hp.wf a b c wa wb sa sb sc h, List.getElem?_zipWith]
  by_cases hi : i < p.flatLen free
  · rw [List.getElem?_eq_getElem (by omega), List.getElem?_eq_getElem (by omega)]; simp
  · rw [List.getElem?_eq_none (by omega), List.getElem?_eq_none (by omega)]; simp

/-- **C85, non-free masks.**  Without transformation any entry-by-entry combination of masks combines the index sets the same way (so the
complement of a mask has the complementary indices, and the intersection the common ones). -/
theorem C85_nonfree {p : Pattern} (hp : Built p) (f : Bool → Bool → Bool) {a b c : Val Bool} (wa : a.WF) (wb : b.WF) (wc : c.WF)
    (sa : Spec.ShapeOk p a) (sb : Spec.ShapeOk p b) (sc : Spec.ShapeOk p c) (h : Spec.Pointwise f p a b c) :
    ∃ ia ib ic n, p.flatIndices a (some false) = .ok ia ∧ p.flatIndices b (some false) = .ok ib ∧ p.flatIndices c (some false) = .ok ic ∧
      p.flatLength (some false) = .ok n ∧ ∀ i, i ∈ ic ↔ i < n ∧ f (decide (i ∈ ia)) (decide (i ∈ ib)) = true := by
  refine ⟨_, _, _, _, by rw [flatIndices_some, flatIdx_eq false p hp.wf a wa sa], by rw [flatIndices_some, flatIdx_eq false p hp.wf b wb sb],
    by rw [flatIndices_some, flatIdx_eq false p hp.wf c wc sc], flatLength_some _ _, fun i => ?_⟩
  have ha := length_flatMask false p hp.wf a wa sa
  have hb := length_flatMask false p hp.wf b wb sb
  simp only [mem_positions]
  rw [flatMask_pointwise false (by simp) p hp.wf a b c wa wb sa sb sc h, List.getElem?_zipWith]
  by_cases hi : i < p.flatLen false
  · rw [List.getElem?_eq_getElem (by omega), List.getElem?_eq_getElem (by omega)]; simp [hi]
  · rw [List.getElem?_eq_none (by omega), List.getElem?_eq_none (by omega)]; simp [hi]

theorem allEq_lookup {x : Bool} {k : String} {v : Val Bool} : ∀ {vs : List (String × Val Bool)}, Spec.AllEq x (.dict vs) →
    vs.lookup k = some v → Spec.AllEq x v
  | [], _, h => by simp at h
  | (k', w) :: r, ha, h => by
    simp only [Spec.AllEq, Spec.AllEqEs] at ha
    rw [List.lookup_cons] at h
    split at h
    · cases h; exact ha.1
    · exact allEq_lookup (by simpa only [Spec.AllEq] using ha.2) h

theorem flatMask_allEq (x : Bool) (free : Bool) (p : Pattern) (hw : p.WF) : ∀ v : Val Bool, v.WF → Spec.ShapeOk p v → Spec.AllEq x v →
    ∀ y ∈ flatMask free p v, y = x := by
  revert hw
  induction p using Pattern.ind
    (Q := fun es => WFEs es → ∀ vs : List (String × Val Bool), Val.WFEs vs → Spec.ShapeOkEs es vs → Spec.AllEq x (.dict vs) →
      ∀ y ∈ flatMaskEs free es vs, y = x) with
  | hnum _ s lb ub dv fd =>
    intro _ v _ hs h y hy
    cases v with
    | dict d => simp [Spec.ShapeOk] at hs
    | arr a => simp only [Spec.AllEq, flatMask] at h hy; exact h y hy
  | hsim k s dv fd =>
    intro hw v wv hs h y hy
    cases v <;> simp only [Spec.ShapeOk, Spec.AllEq] at hs h
    next a =>
    cases free
    · exact h y (by simpa [flatMask] using hy)
    · simp only [flatMask, if_true, List.mem_flatMap, List.mem_replicate, List.mem_range] at hy
      obtain ⟨i, hi, -, rfl⟩ := hy
      have hk : 2 ≤ k := hw
      have hl : a.data.length = s.prod * k := by
        have : a.data.length = a.shape.prod := wv
        rw [this, hs, List.prod_append]; simp
      have hc := length_chunk hl hi
      cases x
      · rw [List.any_eq_false]; exact fun z hz => by rw [h z (mem_chunk hz)]; simp
      · rw [List.any_eq_true]
        exact ⟨_, List.getElem_mem (by omega : 0 < (chunk k a.data i).length), by rw [h _ (mem_chunk (List.getElem_mem _))]; rfl⟩
  | hpsd n lb dv fd =>
    intro hw v wv hs h y hy
    cases v <;> simp only [Spec.ShapeOk, Spec.AllEq] at hs h
    next a =>
    cases free
    · exact h y (by simpa [flatMask] using hy)
    · simp only [flatMask, if_true, List.mem_replicate] at hy
      obtain ⟨hn, rfl⟩ := hy
      have hn' : n ≠ 0 := by rintro rfl; exact hn rfl
      have hl : a.data.length = n * n := by have : a.data.length = a.shape.prod := wv; rw [this, hs]; simp
      have hpos : 0 < a.data.length := by rw [hl]; positivity
      cases x
      · rw [List.any_eq_false]; exact fun z hz => by rw [h z hz]; simp
      · rw [List.any_eq_true]
        exact ⟨_, List.getElem_mem hpos, by rw [h _ (List.getElem_mem _)]; rfl⟩
  | harr s q fd ih =>
    intro hw v wv hs h y hy
    cases v <;> simp only [Spec.ShapeOk, Spec.AllEq] at hs h
    next a =>
    simp only [Pattern.WF] at hw
    simp only [flatMask, List.mem_flatMap, List.mem_range] at hy
    obtain ⟨i, hi, hy⟩ := hy
    refine ih hw.2.2 _ (chunk_wf wv hs hi) (shapeOk_of_shape hw.2.2 hw.2.1 _) ?_ y hy
    simp only [Spec.AllEq]
    exact fun z hz => h z (mem_chunk hz)
  | hdict es lk fd ih =>
    intro hw v wv hs h y hy
    cases v with
    | arr a => simp [Spec.ShapeOk] at hs
    | dict d =>
      simp only [Pattern.WF] at hw
      simp only [flatMask] at hy
      exact ih hw.2 _ wv hs h y hy
  | hnil _ vs _ _ _ y hy => simp [flatMaskEs] at hy
  | hcons k p r ihp ihr hw vs wv hs h y hy =>
    simp only [WFEs] at hw
    simp only [Spec.ShapeOkEs] at hs
    obtain ⟨⟨v, hl, hv⟩, hs⟩ := hs
    simp only [flatMaskEs, hl, List.mem_append] at hy
    rcases hy with hy | hy
    · exact ihp hw.1 v (WFEs_lookup wv hl) hv (allEq_lookup h hl) y hy
    · exact ihr hw.2.2 vs wv hs h y hy

/-- **C85, everything and nothing.**  The mask `empty_bool(True)` has all indices, in both modes, and `empty_bool(False)` none. -/
theorem C85_all {p : Pattern} (hp : Built p) (free : Bool) :
    ∃ t f n, p.emptyBool true = .ok t ∧ p.emptyBool false = .ok f ∧ p.flatLength (some free) = .ok n ∧
      p.flatIndices t (some free) = .ok (List.range n) ∧ p.flatIndices f (some free) = .ok [] := by
  obtain ⟨t, ht, wt, st, -, at_⟩ := C65_empty_bool hp true
  obtain ⟨f, hf, wf, sf, -, af⟩ := C65_empty_bool hp false
  refine ⟨t, f, _, ht, hf, flatLength_some _ _, ?_, ?_⟩
  · rw [flatIndices_some, flatIdx_eq free p hp.wf t wt st]
    have := List.eq_replicate_of_mem (flatMask_allEq true free p hp.wf t wt st at_)
    rw [this, positions_replicate_true, length_flatMask free p hp.wf t wt st]
  · rw [flatIndices_some, flatIdx_eq free p hp.wf f wf sf]
    have := List.eq_replicate_of_mem (flatMask_allEq false free p hp.wf f wf sf af)
    rw [this, positions_replicate_false]

/-- Non-vacuity of the exactness: a mask on the nested example that marks one entry of a simplex, and a free coordinate of it. -/
example : Built exJac ∧ Spec.NoPSD exJac ∧ (∃ b : Val Bool, b.WF ∧ Spec.ShapeOk exJac b ∧ ∃ idx, exJac.flatIndices b (some true) = .ok idx ∧ 5 ∈ idx) ∧
    exJac.flatLength (some true) = .ok (List.replicate 11 (2 : ℝ)).length := by
  obtain ⟨t, f, n, h1, h2, h3, h4, h5⟩ := C85_all (WF.built _ exJac_wf) true
  obtain ⟨t', h1', w, s, -⟩ := C65_empty_bool (WF.built _ exJac_wf) true
  rw [h1] at h1'; cases h1'
  have hn : exJac.flatLength (some true) = .ok 11 := by simp [exJac, flatLength_some, flatLen, flatLenEs]
  rw [hn] at h3; cases h3
  exact ⟨WF.built _ exJac_wf, by simp [exJac, Spec.NoPSD, Spec.NoPSDEs], ⟨t, w, s, _, h4, by simp⟩, by simpa using hn⟩

/-- Non-vacuity of the union: two masks of a dictionary with a vector and a simplex, and their union. -/
example : let p : Pattern := .dict (.cons "a" (.numeric .vector [2] (.flt .ninf) (.flt .pinf) true none)
      (.cons "s" (.simplex 3 [] true none) .nil)) false none
    let a : Val Bool := .dict [("a", .arr (vec [false, true])), ("s", .arr (vec [false, false, false]))]
    let b : Val Bool := .dict [("s", .arr (vec [false, false, true])), ("a", .arr (vec [false, false]))]
    let c : Val Bool := .dict [("a", .arr (vec [false, true])), ("s", .arr (vec [false, false, true]))]
    Built p ∧ a.WF ∧ b.WF ∧ c.WF ∧ Spec.ShapeOk p a ∧ Spec.ShapeOk p b ∧ Spec.ShapeOk p c ∧ Spec.Pointwise or p a b c := by
  intro p a b c
  refine ⟨WF.built _ (by simp [p, Pattern.WF, WFEs, Entries.keys, Entries.toList, lock, PyNum.toFlt, Flt.lt]), ?_⟩
  exact ⟨⟨rfl, rfl, trivial⟩, ⟨rfl, rfl, trivial⟩, ⟨rfl, rfl, trivial⟩, ⟨⟨_, rfl, rfl⟩, ⟨_, rfl, rfl⟩, trivial⟩, ⟨⟨_, rfl, rfl⟩, ⟨_, rfl, rfl⟩, trivial⟩,
    ⟨⟨_, rfl, rfl⟩, ⟨_, rfl, rfl⟩, trivial⟩, ⟨_, _, _, rfl, rfl, rfl, rfl⟩, ⟨_, _, _, rfl, rfl, rfl, rfl⟩, trivial⟩

end Paragami
