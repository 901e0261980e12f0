import Verif.Spec.Settle
import Verif.Props.Accepted
import Verif.Props.Simplex
import Verif.Props.NumericFree
import Verif.Props.PSD

/-! # Free flattening then folding of values on the boundary -/

namespace Paragami
open NDArray Spec
namespace Pattern

theorem acc_of_closed (p : Pattern) (hw : p.WF) (hf : p.FiniteLb) : ∀ (v : Val Flt) (vv), Closed p v → Acc p v vv := by
  revert hw hf
  induction p using Pattern.ind
    (Q := fun es => WFEs es → FiniteLbEs es → ∀ (vs : List (String × Val Flt)) (vv), ClosedEs es vs → AccEs es vs vv) with
  | hnum c s lb ub dv fd =>
    intro hw _ v vv h
    cases v with
    | dict d => simp [Closed] at h
    | arr a =>
      obtain ⟨h1, h2, h3⟩ := h
      rw [acc_numeric]
      refine ⟨a, rfl, h2, fun _ x hx => ?_⟩
      simp only [Pattern.WF] at hw
      rcases h3 x hx with rfl | ⟨h4, h5⟩
      · simp only [Elem.toFlt, id, Flt.gt]
        constructor <;> (generalize lb.toFlt = l; generalize ub.toFlt = u; cases l <;> cases u <;> rfl)
      have hn : x.NotNaN := by cases x <;> simp_all [Flt.le, Flt.lt, Flt.eq]
      rw [Flt.le_iff_not_lt hw.2.2.2.1 hn] at h4
      rw [Flt.le_iff_not_lt hn hw.2.2.2.2.1] at h5
      exact ⟨h4, h5⟩
  | hsim k s dv fd =>
    intro hw _ v vv h
    cases v with
    | dict d => simp [Closed] at h
    | arr a =>
      obtain ⟨h1, h2, h3⟩ := h
      rw [acc_simplex]
      have hlen : a.data.length = s.prod * k := by rw [h1, h2, List.prod_append]; simp
      refine ⟨a, rfl, h2, fun _ => ⟨fun x hx => ?_, fun i hi => ?_⟩⟩
      · rw [← chunk_flatMap _ _ _ hlen] at hx
        obtain ⟨i, hi, hx⟩ := List.mem_flatMap.mp hx
        exact (rowAccepted_iff.mp (h3 i (List.mem_range.mp hi))).1 x hx
      · have e2 : (chunk k a.data i).map (Elem.toFlt : Flt → Flt) = chunk k a.data i := by show List.map id _ = _; simp
        rw [e2]
        exact (rowAccepted_iff.mp (h3 i hi)).2
  | hpsd n lb dv fd =>
    intro hw hf v vv h
    cases v with
    | dict d => simp [Closed] at h
    | arr a =>
      obtain ⟨M, rfl, hs, hd⟩ := h
      simp only [FiniteLb] at hf
      obtain ⟨l, hl⟩ := Flt.isFin_iff.mp hf
      rw [hl, Flt.toReal_fin] at hd
      exact acc_matData hl hs hd vv
  | harr s b fd ih =>
    intro hw hf v vv h
    cases v with
    | dict d => simp [Closed] at h
    | arr a =>
      obtain ⟨h1, h2, h3⟩ := h
      rw [acc_array]
      exact ⟨a, rfl, h2, fun i hi => ih hw.2.2 hf _ vv (h3 i hi)⟩
  | hdict es l fd ih =>
    intro hw hf v vv h
    cases v with
    | arr d => simp [Closed] at h
    | dict vs =>
      rw [acc_dict]
      exact ⟨vs, rfl, ih hw.2 hf vs vv h⟩
  | hnil => simp [AccEs]
  | hcons k p r ihp ihr hw hf vs vv h =>
    obtain ⟨⟨v, hl, hv⟩, h⟩ := h
    exact ⟨⟨v, hl, ihp hw.1 hf.1 v vv hv⟩, ihr hw.2.2 hf.2 vs vv h⟩

/-! ### The leaves -/

theorem numeric_settles {c s lb ub dv fd} (hw : (Pattern.numeric c s lb ub dv fd).WF) {a : NDArray Flt}
    (hc : Closed (.numeric c s lb ub dv fd) (.arr a)) : ∃ d : List Flt, d.length = s.prod ∧
      (∀ vv, (Pattern.numeric c s lb ub dv fd).flattenFree (.arr a) vv = .ok (vec d)) ∧
      ∃ w, (Pattern.numeric c s lb ub dv fd).foldFree (vec d) = .ok w ∧ Settles (.numeric c s lb ub dv fd) (.arr a) w := by
  have hw0 := hw
  have hc0 := hc
  simp only [WF] at hw
  obtain ⟨hs, _, _, h1, h2, h3⟩ := hw
  obtain ⟨hwf, hsh, hb⟩ := hc
  have hlen : a.data.length = s.prod := by rw [← hsh, ← atleast1d_data, atleast1d_wf hwf]
  refine ⟨a.data.map (unconstrain1 lb.toFlt ub.toFlt), by simpa using hlen, fun vv => ?_, ?_⟩
  · simp only [flattenFree, Val.asArr, bind, Except.bind]
    rw [Numeric.flattenFree_ok]
    exact ⟨acc_numeric_arr.mp (acc_of_closed _ hw0 (by simp [FiniteLb]) _ vv hc0), rfl⟩
  · simp only [foldFree]
    rw [Numeric.foldFree_ok.mpr ⟨by simp, by simpa using hlen, rfl⟩]
    refine ⟨_, rfl, rfl, ?_⟩
    rw [vec_data, List.map_map]
    have hnan : constrain1 lb.toFlt ub.toFlt (unconstrain1 lb.toFlt ub.toFlt .nan) = .nan := by
      have n1 : ∀ x, Flt.nan - x = .nan := fun x => by cases x <;> rfl
      have n2 : ∀ x, x - Flt.nan = .nan := fun x => by cases x <;> rfl
      have n3 : ∀ x, x * Flt.nan = .nan := fun x => by cases x <;> rfl
      have n4 : ∀ x, Flt.nan / x = .nan := fun x => by cases x <;> rfl
      have n7 : Flt.nan.log = .nan := rfl
      have n8 : Flt.nan.exp = .nan := rfl
      rcases bounds_cases h1 h2 h3 with ⟨e1, e2⟩ | ⟨a, e1, e2⟩ | ⟨b, e1, e2⟩ | ⟨a, b, e1, e2, _⟩ <;> rw [e1, e2] <;>
        simp [constrain1, unconstrain1, Flt.eq, n1, n2, n3, n4, n7, n8, Flt.nan_add, Flt.add_nan]
    have : ∀ l : List Flt, (∀ x ∈ l, x = .nan ∨ (lb.toFlt.le x = true ∧ x.le ub.toFlt = true)) →
        List.Forall₂ (EntrySettles lb.toFlt ub.toFlt) l (l.map (constrain1 lb.toFlt ub.toFlt ∘ unconstrain1 lb.toFlt ub.toFlt)) := by
      intro l
      induction l with
      | nil => intro _; exact .nil
      | cons x l ih =>
        intro hl
        refine .cons ?_ (ih fun y hy => hl y (by simp [hy]))
        rcases hl x (by simp) with rfl | hx
        · rw [Function.comp, hnan]
          exact ⟨fun _ => rfl, fun _ => rfl⟩
        have e := constrain_unconstrain_incl h1 h2 h3 hx.1 hx.2
        rw [Function.comp, e]
        exact ⟨fun h => if_pos h, fun h => if_neg h⟩
    exact this _ hb

theorem simplex_settles {k s dv fd} (hw : (Pattern.simplex k s dv fd).WF) {a : NDArray Flt}
    (hc : Closed (.simplex k s dv fd) (.arr a)) : ∃ d : List Flt, d.length = (s ++ [k - 1]).prod ∧
      (∀ vv, (Pattern.simplex k s dv fd).flattenFree (.arr a) vv = .ok (vec d)) ∧
      ∃ w, (Pattern.simplex k s dv fd).foldFree (vec d) = .ok w ∧ Settles (.simplex k s dv fd) (.arr a) w := by
  have hw0 := hw
  have hc0 := hc
  simp only [WF] at hw
  obtain ⟨hwf, hsh, hb⟩ := hc
  have hlen : a.data.length = s.prod * k := by rw [hwf, hsh, List.prod_append]; simp
  have hul : ∀ i < s.prod, (unconstrainSimplexRow (chunk k a.data i)).length = k - 1 := by
    intro i hi
    rw [length_unconstrainSimplexRow, length_chunk hlen hi]
  have hdl := length_flatMap_range (n := s.prod) (fun i => unconstrainSimplexRow (chunk k a.data i)) hul
  have hdl' : ((List.range s.prod).flatMap fun i => unconstrainSimplexRow (chunk k a.data i)).length = (s ++ [k - 1]).prod := by
    rw [hdl, List.prod_append]; simp
  have hcl : ∀ i < s.prod, (constrainSimplexRow (unconstrainSimplexRow (chunk k a.data i))).length = k := by
    intro i hi
    simp [constrainSimplexRow, hul i hi]; omega
  refine ⟨(List.range s.prod).flatMap fun i => unconstrainSimplexRow (chunk k a.data i), hdl', fun vv => ?_, ?_⟩
  · simp only [flattenFree, Val.asArr, bind, Except.bind]
    rw [Simplex.flattenFree_ok]
    exact ⟨acc_simplex_arr.mp (acc_of_closed _ hw0 (by simp [FiniteLb]) _ vv hc0), rfl⟩
  · simp only [foldFree]
    rw [Simplex.foldFree_ok.mpr ⟨by simp only [vec, NDArray.len, hdl'], by rw [vec_data, hdl'], rfl⟩]
    refine ⟨_, rfl, ?_, rfl, fun i hi => ?_⟩
    · simp only [NDArray.WF, List.prod_append, List.prod_cons, List.prod_nil, mul_one]
      refine length_flatMap_range _ fun i hi => ?_
      rw [vec_data, chunk_of_flatMap _ hul hi]
      exact hcl i hi
    · have e : (List.range s.prod).flatMap (fun i => constrainSimplexRow (chunk (k - 1) (vec ((List.range s.prod).flatMap fun i =>
          unconstrainSimplexRow (chunk k a.data i))).data i)) =
          (List.range s.prod).flatMap fun i => constrainSimplexRow (unconstrainSimplexRow (chunk k a.data i)) := by
        apply List.flatMap_congr
        intro i hi
        rw [vec_data, chunk_of_flatMap _ hul (List.mem_range.mp hi)]
      rw [block_eq_chunk, block_eq_chunk, e, chunk_of_flatMap _ hcl hi]
      have hcl : (chunk k a.data i).length = k := length_chunk hlen hi
      obtain ⟨hnn, hrow⟩ := hb i hi
      rw [block_eq_chunk] at hnn hrow
      rcases hrow with hnan | ⟨r, hr, _⟩
      · refine .inl ⟨hnan, ?_⟩
        obtain ⟨x, y, l, e⟩ : ∃ x y l, chunk k a.data i = x :: y :: l := by
          match h : chunk k a.data i, hcl with
          | [], hl => simp at hl; omega
          | [_], hl => simp at hl; omega
          | x :: y :: l, _ => exact ⟨x, y, l, rfl⟩
        rw [e] at hnan ⊢
        have : Flt.nan ∈ unconstrainSimplexRow (x :: y :: l) := by
          simp only [unconstrainSimplexRow]
          rcases List.mem_cons.mp hnan with h | h
          · rw [← h]
            refine List.mem_map.mpr ⟨y, by simp, ?_⟩
            generalize y.log = z
            cases z <;> rfl
          · refine List.mem_map.mpr ⟨_, h, ?_⟩
            generalize x.log = z
            cases z <;> rfl
        rw [constrainSimplexRow_top this (.inr rfl)]
        simp [unconstrainSimplexRow]
      right
      have hnn : ∀ x ∈ r, 0 ≤ x := by
        intro x hx
        have := hnn (.fin x) (by rw [hr]; exact List.mem_map_of_mem hx)
        have h0 : (0 : Flt) = Flt.fin 0 := by simp
        rw [h0] at this
        rcases this with h | h
        · cases h
        · rw [Flt.le_iff_not_lt (by simp) (by simp)] at h
          simpa [Flt.lt] using h
      have hrl : r.length = k := by
        have := congrArg List.length hr
        rwa [hcl, List.length_map, eq_comm] at this
      cases r with
      | nil => simp at hrl; omega
      | cons x xs =>
        refine ⟨x, xs, hr, fun h0 => ?_, fun h0 => ?_⟩
        · subst h0
          rw [hr, constrain_unconstrain_zero (by rintro rfl; simp at hrl; omega) fun y hy => hnn y (by simp [hy])]
          simp
        · rw [hr, constrain_unconstrain_nonneg h0 fun y hy => hnn y (by simp [hy])]

theorem psd_settles {n lb dv fd} (hw : (Pattern.psd n lb dv fd).WF) (hf : (Pattern.psd n lb dv fd).FiniteLb) {a : NDArray Flt}
    (hc : Closed (.psd n lb dv fd) (.arr a)) :
    (PosDefs (.psd n lb dv fd) (.arr a) → ∃ d : List Flt, d.length = tri n ∧
      (∀ vv, (Pattern.psd n lb dv fd).flattenFree (.arr a) vv = .ok (vec d)) ∧ (Pattern.psd n lb dv fd).foldFree (vec d) = .ok (.arr a)) ∧
    (¬ PosDefs (.psd n lb dv fd) (.arr a) → ∀ vv, (Pattern.psd n lb dv fd).flattenFree (.arr a) vv = .error .linAlgError) := by
  constructor
  · intro h
    obtain ⟨r, h1, h2, h3⟩ := psd_free_val hf hw (a := a) h
    exact ⟨r.map .fin, by simpa using h1, h2, h3⟩
  · intro h vv
    obtain ⟨M, rfl, hs, hd⟩ := hc
    simp only [FiniteLb] at hf
    obtain ⟨l, hl⟩ := Flt.isFin_iff.mp hf
    rw [hl, Flt.toReal_fin] at hd
    have := (C19_psd_flatten_iff (WF.built _ hw) hl hs hd vv).2 fun h' => h ⟨M, rfl, by rw [hl, Flt.toReal_fin]; exact h'⟩
    rwa [flatten_true] at this

/-! ### Containers -/

theorem mapE_error {ε β : Type} {f : Nat → Except ε β} {e : ε} : ∀ {l : List Nat}, (∀ i ∈ l, (∃ b, f i = .ok b) ∨ f i = .error e) →
    (∃ i ∈ l, f i = .error e) → mapE f l = .error e
  | [], _, h => by obtain ⟨i, hi, _⟩ := h; simp at hi
  | a :: l, h1, h2 => by
    rw [mapE]
    rcases h1 a (by simp) with ⟨b, hb⟩ | hb
    · rw [hb]
      have : mapE f l = .error e := by
        refine mapE_error (fun i hi => h1 i (by simp [hi])) ?_
        obtain ⟨i, hi, he⟩ := h2
        rcases List.mem_cons.mp hi with rfl | hi
        · rw [hb] at he; cases he
        · exact ⟨i, hi, he⟩
      simp only [this]
    · rw [hb]

theorem flattenItems_error {f : Val Flt → Except Err (NDArray Flt)} {a : NDArray Flt} {s bshape : List Nat} {e : Err} (ha : a.shape = s ++ bshape)
    (hf : ∀ i < s.prod, (∃ y, f (.arr ⟨bshape, chunk bshape.prod a.data i⟩) = .ok y) ∨ f (.arr ⟨bshape, chunk bshape.prod a.data i⟩) = .error e)
    (he : ∃ i < s.prod, f (.arr ⟨bshape, chunk bshape.prod a.data i⟩) = .error e) : flattenItems f a s = .error e := by
  have h0 : mapE (fun item => (a.getItem item >>= fun sub => f (.arr sub))) (productRanges s) =
      mapE (fun item => f (.arr ⟨bshape, chunk bshape.prod a.data (ravel s item)⟩)) (productRanges s) := by
    apply mapE_congr
    intro item hi
    rw [getItem_eq ha hi]; rfl
  have h1 := mapE_productRanges s (fun i => f (.arr ⟨bshape, chunk bshape.prod a.data i⟩))
  have h2 : mapE (fun i => f (.arr ⟨bshape, chunk bshape.prod a.data i⟩)) (List.range s.prod) = .error e := by
    refine mapE_error (fun i hi => hf i (List.mem_range.mp hi)) ?_
    obtain ⟨i, hi, h⟩ := he
    exact ⟨i, List.mem_range.mpr hi, h⟩
  unfold flattenItems
  rw [h0, h1, h2]
  rfl

theorem settles_arr {b : Pattern} (hw : b.WF) (hd : b.isDict = false) {d : List Flt} (hl : d.length = b.shape.prod) {w : Val Flt}
    (h : Settles b (.arr ⟨b.shape, d⟩) w) : ∃ d', w = .arr ⟨b.shape, d'⟩ ∧ d'.length = b.shape.prod := by
  cases b with
  | dict => simp [isDict] at hd
  | numeric c s lb ub dv fd =>
    cases w with
    | dict => simp [Settles] at h
    | arr b =>
      obtain ⟨h1, h2⟩ := h
      refine ⟨b.data, ?_, by rw [← hl]; exact h2.length_eq.symm⟩
      obtain ⟨sh, bd⟩ := b
      simp only at h1
      rw [h1]; rfl
  | psd n lb dv fd =>
    simp only [Settles] at h
    exact ⟨d, h, hl⟩
  | simplex k s dv fd =>
    cases w with
    | dict => simp [Settles] at h
    | arr b =>
      obtain ⟨h1, h2, _⟩ := h
      obtain ⟨sh, bd⟩ := b
      simp only at h2
      subst h2
      exact ⟨bd, rfl, h1⟩
  | array s b' fd =>
    cases w with
    | dict => simp [Settles] at h
    | arr b =>
      obtain ⟨h1, h2, _⟩ := h
      obtain ⟨sh, bd⟩ := b
      simp only at h2
      subst h2
      exact ⟨bd, rfl, h1⟩

/-- What the free round trip does. -/
theorem settle_main (p : Pattern) (hw : p.WF) (hf : p.FiniteLb) : ∀ v : Val Flt, Closed p v → p.NoEmpty →
    (PosDefs p v → ∃ d : List Flt, d.length = p.flatLen true ∧ (∀ vv, p.flattenFree v vv = .ok (vec d)) ∧
      ∃ w, p.foldFree (vec d) = .ok w ∧ Settles p v w) ∧
    (¬ PosDefs p v → ∀ vv, p.flattenFree v vv = .error .linAlgError) := by
  revert hw hf
  induction p using Pattern.ind
    (Q := fun es => WFEs es → FiniteLbEs es → ∀ vs, ClosedEs es vs → NoEmptyEs es →
      (PosDefsEs es vs → ∃ d : List Flt, d.length = flatLenEs es true ∧
        (∀ vv, ∃ parts, flattenFreeEs es vs vv = .ok parts ∧ (es ≠ .nil → parts ≠ []) ∧ parts.flatMap (·.data) = d) ∧
        ∃ ws, SettlesEs es vs ws ∧ ∀ pre : List Flt, foldFreeEs es (vec (pre ++ d)) pre.length = .ok ws) ∧
      (¬ PosDefsEs es vs → ∀ vv, flattenFreeEs es vs vv = .error .linAlgError)) with
  | hnum c s lb ub dv fd =>
    intro hw _ v hc _
    cases v with
    | dict d => simp [Closed] at hc
    | arr a =>
      obtain ⟨d, h1, h2, h3⟩ := numeric_settles hw hc
      exact ⟨fun _ => ⟨d, by simpa [flatLen] using h1, h2, h3⟩, fun h => absurd trivial h⟩
  | hsim k s dv fd =>
    intro hw _ v hc _
    cases v with
    | dict d => simp [Closed] at hc
    | arr a =>
      obtain ⟨d, h1, h2, h3⟩ := simplex_settles hw hc
      exact ⟨fun _ => ⟨d, by rw [h1, flatLen, if_pos rfl], h2, h3⟩, fun h => absurd trivial h⟩
  | hpsd n lb dv fd =>
    intro hw hf v hc _
    cases v with
    | dict d => simp [Closed] at hc
    | arr a =>
      obtain ⟨h1, h2⟩ := psd_settles hw hf hc
      refine ⟨fun h => ?_, h2⟩
      obtain ⟨d, h3, h4, h5⟩ := h1 h
      exact ⟨d, by simpa [flatLen, tri] using h3, h4, _, h5, rfl⟩
  | harr s b fd ih =>
    intro hw hf v hc hne
    cases v with
    | dict d => simp [Closed] at hc
    | arr a =>
    have hw0 := hw
    have hf0 := hf
    have hc0 := hc
    simp only [WF] at hw
    simp only [FiniteLb] at hf
    simp only [NoEmpty] at hne
    obtain ⟨hwf, hsh, hb⟩ := hc
    have hlen : a.data.length = s.prod * b.shape.prod := by rw [hwf, hsh, List.prod_append]
    constructor
    · intro hpd
      have hB : ∀ i, ∃ g : List Flt × List Flt, i < s.prod → (g.1.length = b.flatLen true ∧
          (∀ vv, b.flattenFree (.arr ⟨b.shape, chunk b.shape.prod a.data i⟩) vv = .ok (vec g.1)) ∧
          b.foldFree (vec g.1) = .ok (.arr ⟨b.shape, g.2⟩) ∧ g.2.length = b.shape.prod ∧
          Settles b (.arr ⟨b.shape, chunk b.shape.prod a.data i⟩) (.arr ⟨b.shape, g.2⟩)) := by
        intro i
        by_cases hi : i < s.prod
        · obtain ⟨d, h1, h2, w, h3, h4⟩ := (ih hw.2.2 hf _ (hb i hi) hne.2).1 (hpd i hi)
          obtain ⟨d', rfl, h5⟩ := settles_arr hw.2.2 hw.2.1 (length_chunk hlen hi) h4
          exact ⟨(d, d'), fun _ => ⟨h1, h2, h3, h5, h4⟩⟩
        · exact ⟨([], []), fun h => absurd h hi⟩
      choose g hg using hB
      have hgl : ∀ i < s.prod, (g i).1.length = b.flatLen true := fun i hi => (hg i hi).1
      have hgl' : ∀ i < s.prod, (g i).2.length = b.shape.prod := fun i hi => (hg i hi).2.2.2.1
      have hdl := length_flatMap_range (fun i => (g i).1) hgl
      refine ⟨(List.range s.prod).flatMap fun i => (g i).1, by rw [hdl, flatLen], fun vv => ?_, ?_⟩
      · rw [flattenFree_array_unfold, requireValid_ok_iff.mpr (acc_of_closed _ hw0 hf0 _ vv hc0)]
        simp only [bind, Except.bind, Val.asArr]
        rw [flattenItems_eq hsh (g := fun i => (g i).1) (fun i hi => (hg i hi).2.1 vv) hne.1]
      · refine ⟨.arr ⟨s ++ b.shape, (List.range s.prod).flatMap fun i => (g i).2⟩, ?_, ?_, rfl, fun i hi => ?_⟩
        · rw [foldFree_array_unfold, checkFlat_vec (by simpa using hdl)]
          simp only [bind, Except.bind]
          rw [foldItems_eq (g := fun i => (g i).2) _ hgl']
          · rfl
          · intro i hi
            rw [vec_data, chunk_of_flatMap (fun i => (g i).1) hgl hi]
            exact (hg i hi).2.2.1
        · rw [NDArray.WF, length_flatMap_range _ hgl', List.prod_append]
        · rw [block_eq_chunk, block_eq_chunk, chunk_of_flatMap (fun i => (g i).2) hgl' hi]
          exact (hg i hi).2.2.2.2
    · intro hpd vv
      rw [flattenFree_array_unfold, requireValid_ok_iff.mpr (acc_of_closed _ hw0 hf0 _ vv hc0)]
      simp only [bind, Except.bind, Val.asArr]
      refine flattenItems_error hsh (fun i hi => ?_) ?_
      · by_cases h : PosDefs b (.arr ⟨b.shape, block b.shape.prod a.data i⟩)
        · obtain ⟨d, _, h2, _⟩ := (ih hw.2.2 hf _ (hb i hi) hne.2).1 h
          exact .inl ⟨_, h2 vv⟩
        · exact .inr ((ih hw.2.2 hf _ (hb i hi) hne.2).2 h vv)
      · simp only [PosDefs, not_forall] at hpd
        obtain ⟨i, hi, h⟩ := hpd
        exact ⟨i, hi, (ih hw.2.2 hf _ (hb i hi) hne.2).2 h vv⟩
  | hdict es l fd ih =>
    intro hw hf v hc hne
    cases v with
    | arr d => simp [Closed] at hc
    | dict vs =>
    have hw0 := hw
    have hf0 := hf
    have hc0 := hc
    simp only [WF] at hw
    simp only [FiniteLb] at hf
    simp only [NoEmpty] at hne
    obtain ⟨h1, h2⟩ := ih hw.2 hf vs hc hne.2
    constructor
    · intro hpd
      obtain ⟨d, h3, h4, ws, h5, h6⟩ := h1 hpd
      refine ⟨d, by rw [h3, flatLen], fun vv => ?_, .dict ws, ?_, h5⟩
      · obtain ⟨parts, h5, h6, h7⟩ := h4 vv
        rw [flattenFree_dict_unfold, requireValid_ok_iff.mpr (acc_of_closed _ hw0 hf0 _ vv hc0)]
        simp only [bind, Except.bind, Val.asDict, h5, hstack]
        have := h6 hne.1
        split
        · contradiction
        · rw [h7]
      · have := h6 []
        simp only [List.nil_append, List.length_nil] at this
        rw [foldFree_dict_unfold, checkFlat_vec (by simpa using h3)]
        simp only [bind, Except.bind, this]
        rfl
    · intro hpd vv
      rw [flattenFree_dict_unfold, requireValid_ok_iff.mpr (acc_of_closed _ hw0 hf0 _ vv hc0)]
      simp only [bind, Except.bind, Val.asDict, h2 hpd vv]
  | hnil hw hf vs hc hne =>
    exact ⟨fun _ => ⟨[], by simp [flatLenEs], fun vv => ⟨[], by simp [flattenFreeEs], by simp, by simp⟩, [], rfl,
      fun pre => by simp [foldFreeEs]⟩, fun h => absurd trivial h⟩
  | hcons k p rest ihp ihr hw hf vs hc hne =>
    simp only [WFEs] at hw
    simp only [FiniteLbEs] at hf
    simp only [NoEmptyEs] at hne
    obtain ⟨⟨v, hl, hv⟩, hc⟩ := hc
    obtain ⟨p1, p2⟩ := ihp hw.1 hf.1 v hv hne.1
    obtain ⟨q1, q2⟩ := ihr hw.2.2 hf.2 vs hc hne.2
    constructor
    · intro hpd
      obtain ⟨d1, a1, a2, w, a3, a4⟩ := p1 (hpd.1 v hl)
      obtain ⟨d2, b1, b2, ws, b3, b4⟩ := q1 hpd.2
      refine ⟨d1 ++ d2, by simp [a1, b1, flatLenEs], fun vv => ?_, (k, w) :: ws, ⟨v, w, ws, hl, rfl, a4, b3⟩, fun pre => ?_⟩
      · obtain ⟨parts, h5, _, h7⟩ := b2 vv
        refine ⟨vec d1 :: parts, ?_, by simp, by simp [h7]⟩
        simp only [flattenFreeEs, hl, a2 vv, bind, Except.bind, h5]
        rfl
      · have e1 : (vec (pre ++ (d1 ++ d2))).slice pre.length (p.flatLen true) = vec d1 := by
          simp only [slice, vec_data, List.drop_left, ← a1, List.take_left]
        have e2 := b4 (pre ++ d1)
        rw [List.append_assoc, List.length_append, a1] at e2
        simp only [foldFreeEs, e1, a3, e2, bind, Except.bind]
        rfl
    · intro hpd vv
      by_cases h : PosDefs p v
      · obtain ⟨d, _, h2, _⟩ := p1 h
        have h3 : ¬ PosDefsEs rest vs := fun h' => hpd ⟨fun v' hv' => by rw [hl] at hv'; cases hv'; exact h, h'⟩
        simp only [flattenFreeEs, hl, h2 vv, bind, Except.bind, q2 h3 vv]
      · simp only [flattenFreeEs, hl, p2 h vv, bind, Except.bind]

end Pattern
end Paragami
