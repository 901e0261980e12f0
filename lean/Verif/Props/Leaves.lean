import Verif.Spec.Leaves
import Verif.Props.LeafNames
import Verif.Props.Containers
import Verif.Props.Jacobians
import Verif.Proofs.Regroup

/-! # C129: nested dictionaries are the sequence of their leaves -/

namespace Paragami
open Pattern NDArray Spec

/-! ### Paths -/

theorem pick_cons {k : String} {vs : List (String × Val Flt)} {v : Val Flt} (h : vs.lookup k = some v) (ks : List String) :
    pick (.dict vs) (k :: ks) = pick v ks := by
  rw [pick, h]

theorem forall₂_split {A B : Type} {R : A → B → Prop} {l₁ l₂ : List A} {ys : List B} (h : List.Forall₂ R (l₁ ++ l₂) ys) :
    ∃ y₁ y₂, List.Forall₂ R l₁ y₁ ∧ List.Forall₂ R l₂ y₂ ∧ ys = y₁ ++ y₂ := by
  refine ⟨ys.take l₁.length, ys.drop l₁.length, ?_, ?_, (List.take_append_drop _ _).symm⟩
  · have := List.forall₂_take l₁.length h
    rwa [List.take_left] at this
  · have := List.forall₂_drop l₁.length h
    rwa [List.drop_left] at this

theorem leaves_ne_nil (p : Pattern) : Populated p → nameLeaves p ≠ [] := by
  induction p using Pattern.ind (Q := fun es => PopulatedEs es → es ≠ .nil → nameLeavesEs es ≠ []) with
  | hnum => simp [nameLeaves]
  | hsim => simp [nameLeaves]
  | hpsd => simp [nameLeaves]
  | harr => simp [nameLeaves]
  | hdict es l fd ih => exact fun h => ih h.2 h.1
  | hnil _ h => exact absurd rfl h
  | hcons k p r ihp ihr h _ =>
    intro h'
    rw [nameLeavesEs, List.append_eq_nil_iff, List.map_eq_nil_iff] at h'
    exact ihp h.1 h'.1

/-- The leaves of the members, related to parts, member by member. -/
theorem leaves_members {B : Type} {R : Pattern → Val Flt → B → Prop} {k : String} {p : Pattern} {vs : List (String × Val Flt)} {parts : List B}
    (hp : Populated p) :
    List.Forall₂ (fun (l : List String × Pattern) y => ∃ w, pick (.dict vs) l.1 = some w ∧ R l.2 w y) ((nameLeaves p).map fun l => (k :: l.1, l.2)) parts ↔
      ∃ v, vs.lookup k = some v ∧ List.Forall₂ (fun (l : List String × Pattern) y => ∃ w, pick v l.1 = some w ∧ R l.2 w y) (nameLeaves p) parts := by
  rw [List.forall₂_map_left_iff]
  constructor
  · intro h
    cases hv : vs.lookup k with
    | some v =>
      refine ⟨v, rfl, h.imp ?_⟩
      rintro l y ⟨w, h1, h2⟩
      exact ⟨w, by rwa [pick_cons hv] at h1, h2⟩
    | none =>
      have hne := leaves_ne_nil p hp
      cases hl : nameLeaves p with
      | nil => exact absurd hl hne
      | cons l ls =>
        rw [hl] at h
        cases h with
        | cons h _ =>
          obtain ⟨w, h1, _⟩ := h
          simp [pick, hv] at h1
  · rintro ⟨v, hv, h⟩
    refine h.imp ?_
    rintro l y ⟨w, h1, h2⟩
    exact ⟨w, by rwa [pick_cons hv], h2⟩

/-! ### Flattening -/

theorem flatten_vec {p : Pattern} (hw : p.WF) {v : Val Flt} (hv : v.WF) {free : Bool} {vv x} (h : p.flatten v (some free) vv = .ok x) : x = vec x.data := by
  cases free with
  | true => rw [flatten_true] at h; exact (flattenFree_ok_len p hw v vv x hv h).2.1
  | false =>
    rw [flatten_false] at h
    obtain ⟨h1, h2⟩ := flattenNF_ok_imp p hw v vv x hv h
    rw [flattenNF_eq p hw v vv hv h2 h1] at h
    cases h; rfl

theorem flatten_leaves (free : Bool) (vv : Option Bool) (p : Pattern) : p.WF → ∀ (v : Val Flt) (x : NDArray Flt), v.WF →
    (p.flatten v (some free) vv = .ok x ↔ Populated p ∧ ∃ parts : List (NDArray Flt),
      List.Forall₂ (fun (l : List String × Pattern) y => ∃ w, pick v l.1 = some w ∧ l.2.flatten w (some free) vv = .ok y) (nameLeaves p) parts ∧
      x = vec (parts.flatMap (·.data))) := by
  have hleaf : ∀ q : Pattern, q.WF → nameLeaves q = [([], q)] → Populated q → ∀ (v : Val Flt) (x : NDArray Flt), v.WF →
      (q.flatten v (some free) vv = .ok x ↔ Populated q ∧ ∃ parts : List (NDArray Flt),
        List.Forall₂ (fun (l : List String × Pattern) y => ∃ w, pick v l.1 = some w ∧ l.2.flatten w (some free) vv = .ok y) (nameLeaves q) parts ∧
        x = vec (parts.flatMap (·.data))) := by
    intro q hw hl hP v x hv
    rw [hl]
    constructor
    · intro h
      exact ⟨hP, [x], .cons ⟨v, rfl, h⟩ .nil, by simpa using flatten_vec hw hv h⟩
    · rintro ⟨_, parts, h, rfl⟩
      cases h with
      | cons h h' =>
        cases h'
        obtain ⟨w, h1, h2⟩ := h
        cases h1
        have := flatten_vec hw hv h2
        rw [List.flatMap_cons, List.flatMap_nil, List.append_nil, ← this]
        exact h2
  induction p using Pattern.ind
    (Q := fun es => WFEs es → ∀ (vs : List (String × Val Flt)) (X : List Flt), Val.WFEs vs →
      ((∃ parts : List (NDArray Flt),
        List.Forall₂ (fun kp y => ∃ w, vs.lookup kp.1 = some w ∧ kp.2.flatten w (some free) vv = .ok y) es.toList parts ∧ X = parts.flatMap (·.data)) ↔
      PopulatedEs es ∧ ∃ parts : List (NDArray Flt),
        List.Forall₂ (fun (l : List String × Pattern) y => ∃ w, pick (.dict vs) l.1 = some w ∧ l.2.flatten w (some free) vv = .ok y) (nameLeavesEs es) parts ∧
        X = parts.flatMap (·.data))) with
  | hnum => exact fun hw => hleaf _ hw rfl trivial
  | hsim => exact fun hw => hleaf _ hw rfl trivial
  | hpsd => exact fun hw => hleaf _ hw rfl trivial
  | harr => exact fun hw => hleaf _ hw rfl trivial
  | hdict es l fd ih =>
    intro hw v x hv
    have hw' := hw
    simp only [Pattern.WF] at hw'
    cases v with
    | dict vs =>
      rw [C21_dict_flatten_concat (WF.built _ hw) hv]
      constructor
      · rintro ⟨hne, parts, h1, rfl⟩
        obtain ⟨h2, parts', h3, h4⟩ := (ih hw'.2 vs _ hv).mp ⟨parts, h1, rfl⟩
        exact ⟨⟨hne, h2⟩, parts', h3, by rw [h4]⟩
      · rintro ⟨⟨hne, h2⟩, parts', h3, rfl⟩
        obtain ⟨parts, h1, h4⟩ := (ih hw'.2 vs _ hv).mpr ⟨h2, parts', h3, rfl⟩
        exact ⟨hne, parts, h1, by rw [h4]⟩
    | arr a =>
      constructor
      · intro h
        have := acc_of_flatten hw hv h
        rw [acc_dict] at this
        obtain ⟨vs, h, _⟩ := this
        cases h
      · rintro ⟨hP, parts, h, _⟩
        exfalso
        obtain ⟨hne, hP'⟩ := hP
        cases es with
        | nil => exact hne rfl
        | cons k p r =>
          have hn := leaves_ne_nil p hP'.1
          rw [nameLeaves, nameLeavesEs] at h
          cases hl : nameLeaves p with
          | nil => exact hn hl
          | cons l ls =>
            rw [hl] at h
            cases h with
            | cons h _ =>
              obtain ⟨w, h1, _⟩ := h
              simp [pick] at h1
  | hnil _ vs X _ =>
    simp [Entries.toList, nameLeavesEs, PopulatedEs]
  | hcons k p r ihp ihr hw vs X hv =>
    simp only [WFEs] at hw
    simp only [Entries.toList, nameLeavesEs, PopulatedEs]
    constructor
    · rintro ⟨parts, h, rfl⟩
      rw [List.forall₂_cons_left_iff] at h
      obtain ⟨y, ys, ⟨w, h1, h2⟩, h3, rfl⟩ := h
      obtain ⟨g1, parts1, g2, g3⟩ := (ihp hw.1 w y (WFEs_lookup hv h1)).mp h2
      obtain ⟨g4, parts2, g5, g6⟩ := (ihr hw.2.2 vs _ hv).mp ⟨ys, h3, rfl⟩
      refine ⟨⟨g1, g4⟩, parts1 ++ parts2, List.rel_append ?_ g5, ?_⟩
      · exact (leaves_members (R := fun q w y => q.flatten w (some free) vv = .ok y) g1).mpr ⟨w, h1, g2⟩
      · rw [List.flatMap_cons, g6, List.flatMap_append, g3]; rfl
    · rintro ⟨⟨g1, g4⟩, parts, h, rfl⟩
      obtain ⟨parts1, parts2, h1, h2, rfl⟩ := forall₂_split h
      obtain ⟨w, h3, h4⟩ := (leaves_members (R := fun q w y => q.flatten w (some free) vv = .ok y) g1).mp h1
      have h5 := (ihp hw.1 w _ (WFEs_lookup hv h3)).mpr ⟨g1, parts1, h4, rfl⟩
      obtain ⟨ys, h6, h7⟩ := (ihr hw.2.2 vs _ hv).mpr ⟨g4, parts2, h2, rfl⟩
      refine ⟨_ :: ys, .cons ⟨w, h3, h5⟩ h6, ?_⟩
      rw [List.flatMap_cons, List.flatMap_append, h7]; rfl

/-! ### Folding -/

theorem leaf_keys : ∀ (es : Entries) (l : List String × Pattern), l ∈ nameLeavesEs es → ∃ k ks, l.1 = k :: ks ∧ k ∈ es.keys
  | .nil, l, h => by simp [nameLeavesEs] at h
  | .cons k p r, l, h => by
    rw [nameLeavesEs, List.mem_append] at h
    rcases h with h | h
    · obtain ⟨l', _, rfl⟩ := List.mem_map.mp h
      exact ⟨k, l'.1, rfl, by simp [Entries.keys, Entries.toList]⟩
    · obtain ⟨k', ks, h1, h2⟩ := leaf_keys r l h
      refine ⟨k', ks, h1, ?_⟩
      simp only [Entries.keys, Entries.toList, List.map_cons, List.mem_cons]
      exact .inr h2

theorem fold_length {p : Pattern} {x : List Flt} {free : Bool} {vv v} (h : p.fold (vec x) (some free) vv = .ok v) : x.length = p.flatLen free := by
  by_contra hn
  obtain ⟨m, hm⟩ := C07_fold_rejects_wrong_size (p := p) (free := some free) (vv := vv) (flatLength_some p free) hn
  rw [h] at hm
  cases hm

theorem parts_length {free : Bool} {vv : Option Bool} : ∀ {ls : List (List String × Pattern)} {parts : List (List Flt)},
    List.Forall₂ (fun (l : List String × Pattern) y => ∃ w, l.2.fold (vec y) (some free) vv = .ok w) ls parts →
      parts.flatten.length = (ls.map fun l => l.2.flatLen free).sum
  | [], _, h => by cases h; rfl
  | l :: ls, _, h => by
    cases h with
    | cons h h' =>
      obtain ⟨w, hw⟩ := h
      rw [List.flatten_cons, List.length_append, parts_length h', fold_length hw, List.map_cons, List.sum_cons]

/-- What the loop over the members does, in terms of the leaves. -/
theorem fold_leaves (free : Bool) (vv : Option Bool) (p : Pattern) : p.WF → ∀ x : List Flt,
    (∀ v, p.fold (vec x) (some free) vv = .ok v → ∃ parts : List (List Flt), x = parts.flatten ∧
      List.Forall₂ (fun (l : List String × Pattern) y => ∃ w, pick v l.1 = some w ∧ l.2.fold (vec y) (some free) vv = .ok w) (nameLeaves p) parts) ∧
    (∀ parts : List (List Flt), x = parts.flatten →
      List.Forall₂ (fun (l : List String × Pattern) y => ∃ w, l.2.fold (vec y) (some free) vv = .ok w) (nameLeaves p) parts →
      ∃ v, p.fold (vec x) (some free) vv = .ok v) := by
  have hleaf : ∀ q : Pattern, nameLeaves q = [([], q)] → ∀ x : List Flt,
    (∀ v, q.fold (vec x) (some free) vv = .ok v → ∃ parts : List (List Flt), x = parts.flatten ∧
      List.Forall₂ (fun (l : List String × Pattern) y => ∃ w, pick v l.1 = some w ∧ l.2.fold (vec y) (some free) vv = .ok w) (nameLeaves q) parts) ∧
    (∀ parts : List (List Flt), x = parts.flatten →
      List.Forall₂ (fun (l : List String × Pattern) y => ∃ w, l.2.fold (vec y) (some free) vv = .ok w) (nameLeaves q) parts →
      ∃ v, q.fold (vec x) (some free) vv = .ok v) := by
    intro q hl x
    rw [hl]
    constructor
    · intro v h
      exact ⟨[x], by simp, .cons ⟨v, rfl, h⟩ .nil⟩
    · rintro parts rfl h
      cases h with
      | cons h h' => cases h'; simpa using h
  induction p using Pattern.ind
    (Q := fun es => WFEs es → es.keys.Nodup → ∀ (x : List Flt) (off : Nat), off + flatLenEs es free = x.length →
      (∀ vs, foldLoop (fun p y => p.fold y (some free) vv) (fun p => p.flatLen free) es (vec x) off = .ok vs →
        ∃ parts : List (List Flt), x.drop off = parts.flatten ∧
          List.Forall₂ (fun (l : List String × Pattern) y => ∃ w, pick (.dict vs) l.1 = some w ∧ l.2.fold (vec y) (some free) vv = .ok w)
            (nameLeavesEs es) parts) ∧
      (∀ parts : List (List Flt), x.drop off = parts.flatten →
        List.Forall₂ (fun (l : List String × Pattern) y => ∃ w, l.2.fold (vec y) (some free) vv = .ok w) (nameLeavesEs es) parts →
        ∃ vs, foldLoop (fun p y => p.fold y (some free) vv) (fun p => p.flatLen free) es (vec x) off = .ok vs ∧ (free = false → AccEs es vs vv))) with
  | hnum => exact fun _ => hleaf _ rfl
  | hsim => exact fun _ => hleaf _ rfl
  | hpsd => exact fun _ => hleaf _ rfl
  | harr => exact fun _ => hleaf _ rfl
  | hdict es l fd ih =>
    intro hw x
    simp only [Pattern.WF] at hw
    have ih' := ih hw.2 hw.1 x 0
    constructor
    · intro v h
      have hlen := fold_length h
      rw [flatLen] at hlen
      cases free with
      | true =>
        rw [fold_true, foldFree_dict_unfold] at h
        replace h := bind_ok h; obtain ⟨y, h1, h⟩ := h
        replace h := bind_ok h; obtain ⟨vs, h2, h⟩ := h
        cases h
        obtain ⟨rfl, _, _⟩ := checkFlat_ok h1
        rw [foldFreeEs_eq_loop] at h2
        simpa only [List.drop_zero, nameLeaves] using (ih' (by omega)).1 vs h2
      | false =>
        rw [fold_false, foldNF_dict_unfold] at h
        replace h := bind_ok h; obtain ⟨y, h1, h⟩ := h
        replace h := bind_ok h; obtain ⟨vs, h2, h⟩ := h
        replace h := bind_ok h; obtain ⟨_, _, h⟩ := h
        cases h
        obtain ⟨rfl, _, _⟩ := checkFlat_ok h1
        rw [foldNFEs_eq_loop] at h2
        simpa only [List.drop_zero, nameLeaves] using (ih' (by omega)).1 vs h2
    · intro parts hx h
      have hlen : x.length = flatLenEs es free := by
        have := flatLen_leaves free (.dict es l fd)
        rw [flatLen] at this
        rw [hx, parts_length h, ← this]
      obtain ⟨vs, h1, h2⟩ := (ih' (by omega)).2 parts (by simpa using hx) h
      refine ⟨.dict vs, ?_⟩
      cases free with
      | true =>
        rw [fold_true, foldFree_dict_unfold, checkFlat_vec hlen]
        simp only [bind, Except.bind]
        rw [foldFreeEs_eq_loop]
        have h1' : foldLoop (fun p y => p.foldFree y) (fun p => p.flatLen true) es (vec x) 0 = .ok vs := h1
        rw [h1']; rfl
      | false =>
        rw [fold_false, foldNF_dict_unfold, checkFlat_vec hlen]
        simp only [bind, Except.bind]
        rw [foldNFEs_eq_loop]
        have h1' : foldLoop (fun p y => p.foldNF y vv) (fun p => p.flatLen false) es (vec x) 0 = .ok vs := h1
        rw [h1']
        simp only
        rw [requireValid_ok_iff.mpr (acc_dict.mpr ⟨vs, rfl, h2 rfl⟩)]
        rfl
  | hnil _ _ x off hx =>
    have hd : x.drop off = [] := by
      rw [flatLenEs] at hx
      exact List.drop_eq_nil_of_le (by omega)
    constructor
    · intro vs h
      exact ⟨[], hd, .nil⟩
    · intro parts _ h
      exact ⟨[], rfl, fun _ => trivial⟩
  | hcons k p r ihp ihr hw hnd x off hx =>
    simp only [WFEs] at hw
    obtain ⟨hk, hnd'⟩ := nodup_keys_cons hnd
    rw [flatLenEs] at hx
    have ihr' := ihr hw.2.2 hnd' x (off + p.flatLen free) (by omega)
    have hsl : (vec x).slice off (p.flatLen free) = vec ((x.drop off).take (p.flatLen free)) := rfl
    constructor
    · intro vs h
      rw [foldLoop] at h
      replace h := bind_ok h; obtain ⟨v, h1, h⟩ := h
      replace h := bind_ok h; obtain ⟨vs', h2, h⟩ := h
      cases h
      rw [hsl] at h1
      obtain ⟨parts1, g1, g2⟩ := (ihp hw.1 _).1 v h1
      obtain ⟨parts2, g3, g4⟩ := ihr'.1 vs' h2
      refine ⟨parts1 ++ parts2, ?_, ?_⟩
      · rw [List.flatten_append, ← g1, ← g3, ← List.drop_drop, List.take_append_drop]
      · rw [nameLeavesEs]
        refine List.rel_append ?_ ?_
        · rw [List.forall₂_map_left_iff]
          refine g2.imp ?_
          rintro l y ⟨w, h3, h4⟩
          exact ⟨w, by rw [pick_cons (v := v) (by simp [List.lookup])]; exact h3, h4⟩
        · have hmem : ∀ l ∈ nameLeavesEs r, pick (.dict ((k, v) :: vs')) l.1 = pick (.dict vs') l.1 := by
            intro l hl
            obtain ⟨k', ks, e1, e2⟩ := leaf_keys r l hl
            have hne : k' ≠ k := fun h => hk (h ▸ e2)
            simp only [e1, pick, lookup_cons_ne hne]
          revert g4 hmem
          generalize nameLeavesEs r = L
          clear * -
          intro g4 hmem
          induction g4 with
          | nil => exact .nil
          | cons h _ ih =>
            obtain ⟨w, h3, h4⟩ := h
            exact .cons ⟨w, by rw [hmem _ List.mem_cons_self]; exact h3, h4⟩ (ih fun l hl => hmem l (List.mem_cons_of_mem _ hl))
    · intro parts he h
      rw [nameLeavesEs] at h
      obtain ⟨parts1, parts2, h1, h2, rfl⟩ := forall₂_split h
      rw [List.forall₂_map_left_iff] at h1
      have hl1 : parts1.flatten.length = p.flatLen free := by rw [parts_length h1, ← flatLen_leaves]
      rw [List.flatten_append] at he
      have e1 : (x.drop off).take (p.flatLen free) = parts1.flatten := by rw [he, List.take_left' hl1]
      have e2 : x.drop (off + p.flatLen free) = parts2.flatten := by rw [← List.drop_drop, he, List.drop_left' hl1]
      obtain ⟨v, g1⟩ := (ihp hw.1 _).2 parts1 e1 h1
      obtain ⟨vs, g2, g3⟩ := ihr'.2 parts2 e2 h2
      refine ⟨(k, v) :: vs, ?_, fun hf => ?_⟩
      · rw [foldLoop, hsl, g1]
        simp only [bind, Except.bind]
        rw [g2]; rfl
      · subst hf
        refine ⟨⟨v, by simp [List.lookup], ?_⟩, (accEs_cons_irrel hk).mpr (g3 rfl)⟩
        rw [fold_false] at g1
        exact (foldNF_ok_imp p hw.1 _ _ _ g1).2.2

/-! ### Jacobians -/

theorem blockEntry_append : ∀ (g rest : List (NDArray Flt)) (i j : Nat), blockEntry (g ++ rest) i j =
    if i < (g.map fun a => (matDims a).1).sum then
      if j < (g.map fun a => (matDims a).2).sum then blockEntry g i j else 0
    else if j < (g.map fun a => (matDims a).2).sum then 0
    else blockEntry rest (i - (g.map fun a => (matDims a).1).sum) (j - (g.map fun a => (matDims a).2).sum)
  | [], rest, i, j => by simp
  | a :: g, rest, i, j => by
    simp only [List.cons_append, blockEntry, List.map_cons, List.sum_cons]
    rw [blockEntry_append g rest]
    generalize (matDims a).1 = m
    generalize (matDims a).2 = n
    generalize (g.map fun a => (matDims a).1).sum = M
    generalize (g.map fun a => (matDims a).2).sum = N
    by_cases h1 : i < m
    · by_cases h2 : j < n
      · rw [if_pos h1, if_pos h2, if_pos (by omega), if_pos (by omega), if_pos h1]
      · rw [if_pos h1, if_neg h2, if_pos (by omega)]
        split_ifs <;> rfl
    · by_cases h2 : j < n
      · rw [if_neg h1, if_pos h2, if_pos (show j < n + N by omega), if_pos (show j < n + N by omega)]
        split_ifs <;> rfl
      · rw [if_neg h1, if_neg h2, if_neg h1, if_neg h2]
        by_cases h3 : i - m < M
        · by_cases h4 : j - n < N
          · rw [if_pos h3, if_pos h4, if_pos (by omega), if_pos (by omega)]
          · rw [if_pos h3, if_neg h4, if_pos (by omega), if_neg (by omega)]
        · by_cases h4 : j - n < N
          · rw [if_neg h3, if_pos h4, if_neg (by omega), if_pos (by omega)]
          · rw [if_neg h3, if_neg h4, if_neg (by omega), if_neg (by omega)]
            congr 1 <;> omega

/-- Two lists of matrices with the same block diagonal matrix, whatever follows them. -/
def SameBlocks (g g' : List (NDArray Flt)) : Prop :=
  (g.map fun a => (matDims a).1).sum = (g'.map fun a => (matDims a).1).sum ∧ (g.map fun a => (matDims a).2).sum = (g'.map fun a => (matDims a).2).sum ∧
    ∀ i j, blockEntry g i j = blockEntry g' i j

theorem SameBlocks.append {g g' r r' : List (NDArray Flt)} (h : SameBlocks g g') (hr : SameBlocks r r') : SameBlocks (g ++ r) (g' ++ r') := by
  obtain ⟨h1, h2, h3⟩ := h
  obtain ⟨r1, r2, r3⟩ := hr
  refine ⟨by simp [h1, r1], by simp [h2, r2], fun i j => ?_⟩
  rw [blockEntry_append, blockEntry_append, h1, h2, h3, r3]

theorem blockEntry_outside : ∀ (g : List (NDArray Flt)) (i j : Nat),
    ¬ (i < (g.map fun a => (matDims a).1).sum ∧ j < (g.map fun a => (matDims a).2).sum) → blockEntry g i j = 0
  | [], _, _, _ => rfl
  | a :: g, i, j, h => by
    simp only [List.map_cons, List.sum_cons] at h
    simp only [blockEntry]
    split_ifs with h1 h2 h3
    · omega
    · rfl
    · rfl
    · exact blockEntry_outside g _ _ (by omega)

theorem blockDiag_ok {g : List (NDArray Flt)} {J : NDArray Flt} (h : blockDiag g = .ok J) : g ≠ [] ∧
    J = ofFn2 (g.map fun a => (matDims a).1).sum (g.map fun a => (matDims a).2).sum (blockEntry g) := by
  cases g with
  | nil => simp [blockDiag] at h
  | cons a g => exact ⟨by simp, by simpa [blockDiag, eq_comm] using h⟩

theorem sameBlocks_blockDiag {g : List (NDArray Flt)} {J : NDArray Flt} (h : blockDiag g = .ok J) : SameBlocks [J] g := by
  obtain ⟨_, rfl⟩ := blockDiag_ok h
  generalize hM : (g.map fun a => (matDims a).1).sum = M
  generalize hN : (g.map fun a => (matDims a).2).sum = N
  have hm : matDims (ofFn2 M N (blockEntry g)) = (M, N) := rfl
  refine ⟨by simp [hm, hM], by simp [hm, hN], fun i j => ?_⟩
  simp only [blockEntry, hm]
  by_cases h1 : i < M
  · by_cases h2 : j < N
    · rw [if_pos h1, if_pos h2, entry_ofFn2 _ _ _ h1 h2]
    · rw [if_pos h1, if_neg h2, blockEntry_outside g i j (by omega)]
  · rw [if_neg h1, blockEntry_outside g i j (by omega)]
    split_ifs <;> rfl

theorem blockDiag_congr {g g' : List (NDArray Flt)} (h : SameBlocks g g') (hn : g ≠ []) (hn' : g' ≠ []) : blockDiag g = blockDiag g' := by
  obtain ⟨h1, h2, h3⟩ := h
  cases g with
  | nil => exact absurd rfl hn
  | cons a g =>
    cases g' with
    | nil => exact absurd rfl hn'
    | cons a' g' =>
      have : blockEntry (a :: g) = blockEntry (a' :: g') := funext fun i => funext fun j => h3 i j
      simp only [blockDiag, h1, h2, this]

theorem blockDiag_single {J : NDArray Flt} {m n : Nat} (hs : J.shape = [m, n]) (hw : J.WF) : blockDiag [J] = .ok J := by
  obtain ⟨sh, d⟩ := J
  simp only at hs
  subst hs
  have hd : d.length = m * n := by simpa [NDArray.WF] using hw
  simp only [blockDiag, List.map_cons, List.map_nil, List.sum_cons, List.sum_nil, matDims, Nat.add_zero, Except.ok.injEq]
  rw [← ofFn2_entry hd]
  refine ofFn2_congr fun i hi j hj => ?_
  have hm : matDims (⟨[m, n], d⟩ : NDArray Flt) = (m, n) := rfl
  rw [ofFn2_entry hd]
  simp only [blockEntry, hm, if_pos hi, if_pos hj]

theorem jacobian_leaves {f : Pattern → Val Flt → Except Err (NDArray Flt)} {g : Entries → List (String × Val Flt) → Except Err (List (NDArray Flt))}
    (hdict : ∀ es l fd vs, f (.dict es l fd) (.dict vs) = (do let jacs ← g es vs; blockDiag jacs))
    (gnil : ∀ vs, g .nil vs = .ok [])
    (gcons : ∀ k p r vs v j js, vs.lookup k = some v → f p v = .ok j → g r vs = .ok js → g (.cons k p r) vs = .ok (j :: js)) (p : Pattern) :
    Populated p → ∀ (v : Val Flt) (Js : List (Nat × Nat × NDArray Flt)), (∀ b ∈ Js, b.2.2.shape = [b.1, b.2.1] ∧ b.2.2.WF) →
      List.Forall₂ (fun (l : List String × Pattern) b => ∃ w, pick v l.1 = some w ∧ f l.2 w = .ok b.2.2) (nameLeaves p) Js →
      f p v = blockDiag (Js.map (·.2.2)) := by
  have hleaf : ∀ q : Pattern, nameLeaves q = [([], q)] → ∀ (v : Val Flt) (Js : List (Nat × Nat × NDArray Flt)),
      (∀ b ∈ Js, b.2.2.shape = [b.1, b.2.1] ∧ b.2.2.WF) →
      List.Forall₂ (fun (l : List String × Pattern) b => ∃ w, pick v l.1 = some w ∧ f l.2 w = .ok b.2.2) (nameLeaves q) Js →
      f q v = blockDiag (Js.map (·.2.2)) := by
    intro q hl v Js hb h
    rw [hl] at h
    cases h with
    | cons h h' =>
      cases h'
      obtain ⟨w, h1, h2⟩ := h
      cases h1
      obtain ⟨h3, h4⟩ := hb _ List.mem_cons_self
      rw [h2, List.map_cons, List.map_nil, blockDiag_single h3 h4]
  induction p using Pattern.ind
    (Q := fun es => PopulatedEs es → ∀ (vs : List (String × Val Flt)) (Js : List (Nat × Nat × NDArray Flt)), (∀ b ∈ Js, b.2.2.shape = [b.1, b.2.1] ∧ b.2.2.WF) →
      List.Forall₂ (fun (l : List String × Pattern) b => ∃ w, pick (.dict vs) l.1 = some w ∧ f l.2 w = .ok b.2.2) (nameLeavesEs es) Js →
      ∃ js, g es vs = .ok js ∧ SameBlocks js (Js.map (·.2.2)) ∧ (es ≠ .nil → js ≠ [])) with
  | hnum => exact fun _ => hleaf _ rfl
  | hsim => exact fun _ => hleaf _ rfl
  | hpsd => exact fun _ => hleaf _ rfl
  | harr => exact fun _ => hleaf _ rfl
  | hdict es l fd ih =>
    intro hP v Js hb h
    have hne : Js ≠ [] := by
      rintro rfl
      exact leaves_ne_nil _ hP (List.forall₂_nil_right_iff.mp h)
    cases v with
    | arr a =>
      cases hl : nameLeaves (.dict es l fd) with
      | nil => exact absurd hl (leaves_ne_nil _ hP)
      | cons m ls =>
        obtain ⟨k, ks, e, _⟩ := leaf_keys es m (by rw [nameLeaves] at hl; rw [hl]; exact List.mem_cons_self)
        rw [hl] at h
        cases h with
        | cons h _ =>
          obtain ⟨w, h1, _⟩ := h
          rw [e] at h1
          simp [pick] at h1
    | dict vs =>
      rw [nameLeaves] at h
      obtain ⟨js, h1, h2, h3⟩ := ih hP.2 vs Js hb h
      rw [hdict, h1]
      exact blockDiag_congr h2 (h3 hP.1) (by simpa using hne)
  | hnil hP vs Js hb h =>
    cases h
    exact ⟨[], gnil vs, ⟨rfl, rfl, fun _ _ => rfl⟩, fun h => absurd rfl h⟩
  | hcons k p r ihp ihr hP vs Js hb h =>
    rw [nameLeavesEs] at h
    obtain ⟨Js1, Js2, h1, h2, rfl⟩ := forall₂_split h
    obtain ⟨v, h3, h4⟩ := (leaves_members (R := fun q w (b : Nat × Nat × NDArray Flt) => f q w = .ok b.2.2) hP.1).mp h1
    have h5 := ihp hP.1 v Js1 (fun b hb' => hb b (List.mem_append_left _ hb')) h4
    obtain ⟨js, h6, h7, _⟩ := ihr hP.2 vs Js2 (fun b hb' => hb b (List.mem_append_right _ hb')) h2
    have hne : Js1 ≠ [] := by
      rintro rfl
      exact leaves_ne_nil _ hP.1 (List.forall₂_nil_right_iff.mp h4)
    obtain ⟨J, hJ, _⟩ := Jac.blockDiag_spec (fun b hb' => hb b (List.mem_append_left _ hb')) hne
    refine ⟨J :: js, gcons k p r vs v J js h3 (by rw [h5, hJ]) h6, ?_, fun _ => by simp⟩
    rw [List.map_append]
    exact (sameBlocks_blockDiag hJ).append h7

/-! ### Log-determinants -/

theorem flt_add_assoc (a b c : Flt) : a + b + c = a + (b + c) := by
  show Flt.add (Flt.add a b) c = Flt.add a (Flt.add b c)
  cases a <;> cases b <;> cases c <;> simp [Flt.add, add_assoc]

theorem flt_zero_add (a : Flt) : 0 + a = a := by
  have h0 : (0 : Flt) = .fin 0 := by change Flt.fin ((0 : ℕ) : ℝ) = Flt.fin 0; simp
  rw [h0]
  show Flt.add (.fin 0) a = a
  cases a <;> simp [Flt.add]

theorem flt_add_zero (a : Flt) : a + 0 = a := by
  have h0 : (0 : Flt) = .fin 0 := by change Flt.fin ((0 : ℕ) : ℝ) = Flt.fin 0; simp
  rw [h0]
  show Flt.add a (.fin 0) = a
  cases a <;> simp [Flt.add]

theorem foldl_add (l : List Flt) : ∀ a : Flt, l.foldl (· + ·) a = a + Flt.sum l := by
  induction l with
  | nil => intro a; exact (flt_add_zero a).symm
  | cons b l ih =>
    intro a
    have : Flt.sum (b :: l) = l.foldl (· + ·) (0 + b) := rfl
    rw [List.foldl_cons, ih, this, ih, flt_zero_add, flt_add_assoc]

theorem sum_append (l m : List Flt) : Flt.sum (l ++ m) = Flt.sum l + Flt.sum m := by
  have : Flt.sum (l ++ m) = m.foldl (· + ·) (Flt.sum l) := by simp [Flt.sum, List.foldl_append]
  rw [this, foldl_add]

theorem logdet_leaves {f : Pattern → Val Flt → Except Err Flt} {g : Entries → List (String × Val Flt) → Flt → Except Err Flt}
    (hdict : ∀ es l fd v, f (.dict es l fd) v = (do let vs ← v.asDict; g es vs 0))
    (gnil : ∀ vs acc, g .nil vs acc = .ok acc)
    (gnone : ∀ k p r vs acc, vs.lookup k = none → g (.cons k p r) vs acc = .error (.keyError k))
    (gcons : ∀ k p r vs acc v, vs.lookup k = some v → g (.cons k p r) vs acc = (do let d ← f p v; g r vs (acc + d))) (p : Pattern) :
    Populated p → ∀ (v : Val Flt) (d : Flt), f p v = .ok d ↔ ∃ ds : List Flt,
      List.Forall₂ (fun (l : List String × Pattern) d => ∃ w, pick v l.1 = some w ∧ f l.2 w = .ok d) (nameLeaves p) ds ∧ d = Flt.sum ds := by
  have hleaf : ∀ q : Pattern, nameLeaves q = [([], q)] → ∀ (v : Val Flt) (d : Flt), f q v = .ok d ↔ ∃ ds : List Flt,
      List.Forall₂ (fun (l : List String × Pattern) d => ∃ w, pick v l.1 = some w ∧ f l.2 w = .ok d) (nameLeaves q) ds ∧ d = Flt.sum ds := by
    intro q hl v d
    rw [hl]
    have h1 : ∀ d, Flt.sum [d] = d := fun d => flt_zero_add d
    constructor
    · exact fun h => ⟨[d], .cons ⟨v, rfl, h⟩ .nil, (h1 d).symm⟩
    · rintro ⟨ds, h, rfl⟩
      cases h with
      | cons h h' =>
        cases h'
        obtain ⟨w, h2, h3⟩ := h
        cases h2
        rw [h3, h1]
  induction p using Pattern.ind
    (Q := fun es => PopulatedEs es → ∀ (vs : List (String × Val Flt)) (acc d : Flt), g es vs acc = .ok d ↔ ∃ ds : List Flt,
      List.Forall₂ (fun (l : List String × Pattern) d => ∃ w, pick (.dict vs) l.1 = some w ∧ f l.2 w = .ok d) (nameLeavesEs es) ds ∧
        d = acc + Flt.sum ds) with
  | hnum => exact fun _ => hleaf _ rfl
  | hsim => exact fun _ => hleaf _ rfl
  | hpsd => exact fun _ => hleaf _ rfl
  | harr => exact fun _ => hleaf _ rfl
  | hdict es l fd ih =>
    intro hP v d
    rw [hdict]
    cases v with
    | arr a =>
      constructor
      · intro h
        obtain ⟨vs, h1, _⟩ := bind_ok h
        simp [Val.asDict] at h1
      · rintro ⟨ds, h, _⟩
        cases hl : nameLeaves (.dict es l fd) with
        | nil => exact absurd hl (leaves_ne_nil _ hP)
        | cons m ls =>
          obtain ⟨k, ks, e, _⟩ := leaf_keys es m (by rw [nameLeaves] at hl; rw [hl]; exact List.mem_cons_self)
          rw [hl] at h
          cases h with
          | cons h _ =>
            obtain ⟨w, h1, _⟩ := h
            rw [e] at h1
            simp [pick] at h1
    | dict vs =>
      have := ih hP.2 vs 0 d
      simp only [flt_zero_add] at this
      rw [nameLeaves]
      exact this
  | hnil _ vs acc d =>
    rw [gnil, nameLeavesEs]
    constructor
    · intro h
      cases h
      exact ⟨[], .nil, (flt_add_zero _).symm⟩
    · rintro ⟨ds, h, rfl⟩
      cases h
      rw [show Flt.sum [] = 0 from rfl, flt_add_zero]
  | hcons k p r ihp ihr hP vs acc d =>
    rw [nameLeavesEs]
    constructor
    · intro h
      cases hv : vs.lookup k with
      | none => rw [gnone _ _ _ _ _ hv] at h; cases h
      | some v =>
        rw [gcons _ _ _ _ _ _ hv] at h
        obtain ⟨d1, h1, h2⟩ := bind_ok h
        obtain ⟨ds1, h3, rfl⟩ := (ihp hP.1 v d1).mp h1
        obtain ⟨ds2, h4, rfl⟩ := (ihr hP.2 vs _ d).mp h2
        refine ⟨ds1 ++ ds2, List.rel_append ((leaves_members (R := fun q w d => f q w = .ok d) hP.1).mpr ⟨v, hv, h3⟩) h4, ?_⟩
        rw [sum_append, flt_add_assoc]
    · rintro ⟨ds, h, rfl⟩
      obtain ⟨ds1, ds2, h1, h2, rfl⟩ := forall₂_split h
      obtain ⟨v, hv, h3⟩ := (leaves_members (R := fun q w d => f q w = .ok d) hP.1).mp h1
      rw [gcons _ _ _ _ _ _ hv, (ihp hP.1 v _).mpr ⟨ds1, h3, rfl⟩]
      refine (ihr hP.2 vs _ _).mpr ⟨ds2, h2, ?_⟩
      rw [sum_append, flt_add_assoc]

/-! ### The theorems -/

/-- **C129.**  A nested dictionary flattens to the vectors of its leaves, one after the other in the order of the leaves,
and it does so exactly if no dictionary is empty and every leaf is there and flattens. -/
theorem C129_flatten {p : Pattern} (hp : Built p) {v : Val Flt} (hv : v.WF) (free : Bool) (vv : Option Bool) (x : NDArray Flt) :
    p.flatten v (some free) vv = .ok x ↔ Populated p ∧ ∃ parts : List (NDArray Flt),
      List.Forall₂ (fun (l : List String × Pattern) y => ∃ w, pick v l.1 = some w ∧ l.2.flatten w (some free) vv = .ok y) (nameLeaves p) parts ∧
      x = vec (parts.flatMap (·.data)) :=
  flatten_leaves free vv p hp.wf v x hv

/-- **C129.**  What a vector folds to has at every leaf what the leaf folds from its own part of the vector; the parts
follow one another in the order of the leaves, each as long as the leaf's own `flat_length`. -/
theorem C129_fold {p : Pattern} (hp : Built p) {x : List Flt} {free : Bool} {vv : Option Bool} {v : Val Flt} (h : p.fold (vec x) (some free) vv = .ok v) :
    ∃ parts : List (List Flt), x = parts.flatten ∧
      List.Forall₂ (fun (l : List String × Pattern) y => l.2.flatLength (some free) = .ok y.length ∧
        ∃ w, pick v l.1 = some w ∧ l.2.fold (vec y) (some free) vv = .ok w) (nameLeaves p) parts := by
  obtain ⟨parts, h1, h2⟩ := (fold_leaves free vv p hp.wf x).1 v h
  refine ⟨parts, h1, h2.imp ?_⟩
  rintro l y ⟨w, h3, h4⟩
  exact ⟨by rw [flatLength_some, fold_length h4], w, h3, h4⟩

/-- **C129.**  A vector can be folded exactly if it is made of parts that the leaves can fold. -/
theorem C129_fold_ok {p : Pattern} (hp : Built p) (x : List Flt) (free : Bool) (vv : Option Bool) :
    (∃ v, p.fold (vec x) (some free) vv = .ok v) ↔ ∃ parts : List (List Flt), x = parts.flatten ∧
      List.Forall₂ (fun (l : List String × Pattern) y => ∃ w, l.2.fold (vec y) (some free) vv = .ok w) (nameLeaves p) parts := by
  constructor
  · rintro ⟨v, h⟩
    obtain ⟨parts, h1, h2⟩ := (fold_leaves free vv p hp.wf x).1 v h
    exact ⟨parts, h1, h2.imp fun l y ⟨w, _, h⟩ => ⟨w, h⟩⟩
  · rintro ⟨parts, h1, h2⟩
    exact (fold_leaves free vv p hp.wf x).2 parts h1 h2

theorem freeing_leaves (ad : AutogradJacobian) {p : Pattern} (hP : Populated p) {v : Val Flt} {Js : List (Nat × Nat × NDArray Flt)}
    (hJ : ∀ b ∈ Js, b.2.2.shape = [b.1, b.2.1] ∧ b.2.2.WF)
    (h : List.Forall₂ (fun (l : List String × Pattern) b => ∃ w, pick v l.1 = some w ∧ freeingJacobian ad l.2 w = .ok b.2.2) (nameLeaves p) Js) :
    freeingJacobian ad p v = blockDiag (Js.map (·.2.2)) := by
  refine jacobian_leaves (f := freeingJacobian ad) (g := freeingJacobianEs ad) ?_ ?_ ?_ p hP v Js hJ h
  · intro es l fd vs; rw [freeingJacobian]; rfl
  · intro vs; rw [freeingJacobianEs]
  · intro k p r vs v j js h1 h2 h3
    rw [freeingJacobianEs, h1]
    simp only
    rw [h2]
    simp only [bind, Except.bind]
    rw [h3]; rfl

theorem unfreeing_leaves (ad : AutogradJacobian) {p : Pattern} (hP : Populated p) {v : Val Flt} {Js : List (Nat × Nat × NDArray Flt)}
    (hJ : ∀ b ∈ Js, b.2.2.shape = [b.1, b.2.1] ∧ b.2.2.WF)
    (h : List.Forall₂ (fun (l : List String × Pattern) b => ∃ w, pick v l.1 = some w ∧ unfreeingJacobian ad l.2 w = .ok b.2.2) (nameLeaves p) Js) :
    unfreeingJacobian ad p v = blockDiag (Js.map (·.2.2)) := by
  refine jacobian_leaves (f := unfreeingJacobian ad) (g := unfreeingJacobianEs ad) ?_ ?_ ?_ p hP v Js hJ h
  · intro es l fd vs; rw [unfreeingJacobian]; rfl
  · intro vs; rw [unfreeingJacobianEs]
  · intro k p r vs v j js h1 h2 h3
    rw [unfreeingJacobianEs, h1]
    simp only
    rw [h2]
    simp only [bind, Except.bind]
    rw [h3]; rfl

/-- **C129.**  The freeing Jacobian of a nested dictionary is block diagonal, with one block for every leaf. -/
theorem C129_freeing_jacobian (ad : AutogradJacobian) {p : Pattern} (hP : Populated p) {v : Val Flt} {Js : List (Nat × Nat × NDArray Flt)}
    (hJ : ∀ b ∈ Js, b.2.2.shape = [b.1, b.2.1] ∧ b.2.2.WF)
    (h : List.Forall₂ (fun (l : List String × Pattern) b => ∃ w, pick v l.1 = some w ∧ freeingJacobian ad l.2 w = .ok b.2.2) (nameLeaves p) Js) :
    ∃ J, freeingJacobian ad p v = .ok J ∧ IsBlockDiag Js J := by
  obtain ⟨J, h1, h2⟩ := Jac.blockDiag_spec hJ (by rintro rfl; exact leaves_ne_nil _ hP (List.forall₂_nil_right_iff.mp h))
  exact ⟨J, by rw [freeing_leaves ad hP hJ h, h1], h2⟩

/-- **C129.**  The same for the unfreeing Jacobian. -/
theorem C129_unfreeing_jacobian (ad : AutogradJacobian) {p : Pattern} (hP : Populated p) {v : Val Flt} {Js : List (Nat × Nat × NDArray Flt)}
    (hJ : ∀ b ∈ Js, b.2.2.shape = [b.1, b.2.1] ∧ b.2.2.WF)
    (h : List.Forall₂ (fun (l : List String × Pattern) b => ∃ w, pick v l.1 = some w ∧ unfreeingJacobian ad l.2 w = .ok b.2.2) (nameLeaves p) Js) :
    ∃ J, unfreeingJacobian ad p v = .ok J ∧ IsBlockDiag Js J := by
  obtain ⟨J, h1, h2⟩ := Jac.blockDiag_spec hJ (by rintro rfl; exact leaves_ne_nil _ hP (List.forall₂_nil_right_iff.mp h))
  exact ⟨J, by rw [unfreeing_leaves ad hP hJ h, h1], h2⟩

/-- **C129.**  The log absolute determinant of the freeing Jacobian is the sum of those of the leaves, and there is one
exactly if every leaf is there and has one. -/
theorem C129_log_det_freeing {p : Pattern} (hP : Populated p) (v : Val Flt) (d : Flt) :
    logAbsDetFreeing p v = .ok d ↔ ∃ ds : List Flt,
      List.Forall₂ (fun (l : List String × Pattern) d => ∃ w, pick v l.1 = some w ∧ logAbsDetFreeing l.2 w = .ok d) (nameLeaves p) ds ∧
      d = Flt.sum ds := by
  refine logdet_leaves (f := logAbsDetFreeing) (g := logAbsDetFreeingEs) ?_ ?_ ?_ ?_ p hP v d
  · intro es l fd v; rw [logAbsDetFreeing]
  · intro vs acc; rw [logAbsDetFreeingEs]
  · intro k p r vs acc h; rw [logAbsDetFreeingEs, h]
  · intro k p r vs acc v h; rw [logAbsDetFreeingEs, h]

/-- **C129.**  The same for the unfreeing Jacobian. -/
theorem C129_log_det_unfreeing {p : Pattern} (hP : Populated p) (v : Val Flt) (d : Flt) :
    logAbsDetUnfreeing p v = .ok d ↔ ∃ ds : List Flt,
      List.Forall₂ (fun (l : List String × Pattern) d => ∃ w, pick v l.1 = some w ∧ logAbsDetUnfreeing l.2 w = .ok d) (nameLeaves p) ds ∧
      d = Flt.sum ds := by
  refine logdet_leaves (f := logAbsDetUnfreeing) (g := logAbsDetUnfreeingEs) ?_ ?_ ?_ ?_ p hP v d
  · intro es l fd v; rw [logAbsDetUnfreeing]
  · intro vs acc; rw [logAbsDetUnfreeingEs]
  · intro k p r vs acc h; rw [logAbsDetUnfreeingEs, h]
  · intro k p r vs acc v h; rw [logAbsDetUnfreeingEs, h]

theorem regroup_rel {B : Type} {R : Pattern → Val Flt → B → Prop} {ls ms : List (List String × Pattern)} {v w : Val Flt}
    (h : (ls.map fun l => (l.2, pick v l.1)) = ms.map fun l => (l.2, pick w l.1)) {ys : List B}
    (hR : List.Forall₂ (fun (l : List String × Pattern) y => ∃ u, pick v l.1 = some u ∧ R l.2 u y) ls ys) :
    List.Forall₂ (fun (l : List String × Pattern) y => ∃ u, pick w l.1 = some u ∧ R l.2 u y) ms ys := by
  have h1 : List.Forall₂ (fun (l : Pattern × Option (Val Flt)) y => ∃ u, l.2 = some u ∧ R l.1 u y) (ls.map fun l => (l.2, pick v l.1)) ys := by
    rw [List.forall₂_map_left_iff]; exact hR
  rw [h, List.forall₂_map_left_iff] at h1
  exact h1

/-- **C129.**  The names of the keys and the way the leaves are grouped do not matter: two patterns with the same leaves in
the same order, and values that have the same at them, have the same flat lengths, flat values, Jacobians and
log-determinants. -/
theorem C129_regroup {p q : Pattern} (hp : Built p) (hq : Built q) (hP : Populated p) (hQ : Populated q) {v w : Val Flt} (hv : v.WF) (hw : w.WF)
    (h : ((nameLeaves p).map fun l => (l.2, pick v l.1)) = (nameLeaves q).map fun l => (l.2, pick w l.1)) :
    (∀ free, p.flatLength (some free) = q.flatLength (some free)) ∧
    (∀ free vv x, p.flatten v (some free) vv = .ok x ↔ q.flatten w (some free) vv = .ok x) ∧
    (∀ d, logAbsDetFreeing p v = .ok d ↔ logAbsDetFreeing q w = .ok d) ∧
    (∀ d, logAbsDetUnfreeing p v = .ok d ↔ logAbsDetUnfreeing q w = .ok d) ∧
    (∀ ad (Js : List (Nat × Nat × NDArray Flt)), (∀ b ∈ Js, b.2.2.shape = [b.1, b.2.1] ∧ b.2.2.WF) →
      List.Forall₂ (fun (l : List String × Pattern) b => ∃ w, pick v l.1 = some w ∧ freeingJacobian ad l.2 w = .ok b.2.2) (nameLeaves p) Js →
      ∃ J, freeingJacobian ad p v = .ok J ∧ freeingJacobian ad q w = .ok J) ∧
    (∀ ad (Js : List (Nat × Nat × NDArray Flt)), (∀ b ∈ Js, b.2.2.shape = [b.1, b.2.1] ∧ b.2.2.WF) →
      List.Forall₂ (fun (l : List String × Pattern) b => ∃ w, pick v l.1 = some w ∧ unfreeingJacobian ad l.2 w = .ok b.2.2) (nameLeaves p) Js →
      ∃ J, unfreeingJacobian ad p v = .ok J ∧ unfreeingJacobian ad q w = .ok J) := by
  refine ⟨fun free => ?_, fun free vv x => ?_, fun d => ?_, fun d => ?_, fun ad Js hJ h1 => ?_, fun ad Js hJ h1 => ?_⟩
  · have := congrArg (List.map fun l => l.1.flatLen free) h
    simp only [List.map_map] at this
    have e : ((nameLeaves p).map fun l => l.2.flatLen free) = (nameLeaves q).map fun l => l.2.flatLen free := this
    rw [flatLength_some, flatLength_some, flatLen_leaves, flatLen_leaves free q, e]
  · rw [C129_flatten hp hv, C129_flatten hq hw]
    exact ⟨fun ⟨_, ys, h1, h2⟩ => ⟨hQ, ys, regroup_rel (R := fun q w y => q.flatten w (some free) vv = .ok y) h h1, h2⟩,
      fun ⟨_, ys, h1, h2⟩ => ⟨hP, ys, regroup_rel (R := fun q w y => q.flatten w (some free) vv = .ok y) h.symm h1, h2⟩⟩
  · rw [C129_log_det_freeing hP, C129_log_det_freeing hQ]
    exact ⟨fun ⟨ys, h1, h2⟩ => ⟨ys, regroup_rel (R := fun q w y => logAbsDetFreeing q w = .ok y) h h1, h2⟩,
      fun ⟨ys, h1, h2⟩ => ⟨ys, regroup_rel (R := fun q w y => logAbsDetFreeing q w = .ok y) h.symm h1, h2⟩⟩
  · rw [C129_log_det_unfreeing hP, C129_log_det_unfreeing hQ]
    exact ⟨fun ⟨ys, h1, h2⟩ => ⟨ys, regroup_rel (R := fun q w y => logAbsDetUnfreeing q w = .ok y) h h1, h2⟩,
      fun ⟨ys, h1, h2⟩ => ⟨ys, regroup_rel (R := fun q w y => logAbsDetUnfreeing q w = .ok y) h.symm h1, h2⟩⟩
  · obtain ⟨J, h2, _⟩ := C129_freeing_jacobian ad hP hJ h1
    refine ⟨J, h2, ?_⟩
    rw [freeing_leaves ad hQ hJ (regroup_rel (R := fun q w (b : Nat × Nat × NDArray Flt) => freeingJacobian ad q w = .ok b.2.2) h h1),
      ← freeing_leaves ad hP hJ h1, h2]
  · obtain ⟨J, h2, _⟩ := C129_unfreeing_jacobian ad hP hJ h1
    refine ⟨J, h2, ?_⟩
    rw [unfreeing_leaves ad hQ hJ (regroup_rel (R := fun q w (b : Nat × Nat × NDArray Flt) => unfreeingJacobian ad q w = .ok b.2.2) h h1),
      ← unfreeing_leaves ad hP hJ h1, h2]

/-- **C129.**  Nor do they matter for folding: the same vectors can be folded, and what they fold to has the same at the
leaves. -/
theorem C129_regroup_fold {p q : Pattern} (hp : Built p) (hq : Built q) (h : (nameLeaves p).map (·.2) = (nameLeaves q).map (·.2)) (x : List Flt)
    (free : Bool) (vv : Option Bool) :
    ((∃ v, p.fold (vec x) (some free) vv = .ok v) ↔ ∃ w, q.fold (vec x) (some free) vv = .ok w) ∧
    ∀ v w, p.fold (vec x) (some free) vv = .ok v → q.fold (vec x) (some free) vv = .ok w →
      (nameLeaves p).map (fun l => pick v l.1) = (nameLeaves q).map (fun l => pick w l.1) := by
  have tr : ∀ {ls ms : List (List String × Pattern)}, ls.map (·.2) = ms.map (·.2) → ∀ {parts : List (List Flt)},
      List.Forall₂ (fun (l : List String × Pattern) y => ∃ w, l.2.fold (vec y) (some free) vv = .ok w) ls parts →
      List.Forall₂ (fun (l : List String × Pattern) y => ∃ w, l.2.fold (vec y) (some free) vv = .ok w) ms parts := by
    intro ls ms e parts h
    have h1 : List.Forall₂ (fun (l : Pattern) y => ∃ w, l.fold (vec y) (some free) vv = .ok w) (ls.map (·.2)) parts := by
      rw [List.forall₂_map_left_iff]; exact h
    rw [e, List.forall₂_map_left_iff] at h1
    exact h1
  refine ⟨?_, ?_⟩
  · rw [C129_fold_ok hp, C129_fold_ok hq]
    exact ⟨fun ⟨ys, h1, h2⟩ => ⟨ys, h1, tr h h2⟩, fun ⟨ys, h1, h2⟩ => ⟨ys, h1, tr h.symm h2⟩⟩
  · intro v w hv hw
    obtain ⟨ys, h1, h2⟩ := C129_fold hp hv
    obtain ⟨zs, h3, h4⟩ := C129_fold hq hw
    rw [h1] at h3
    clear h1 hv hw tr
    revert h h2 h4 h3
    generalize nameLeaves p = ls
    generalize nameLeaves q = ms
    intro h h2 h3 h4
    clear hp hq x
    induction h2 generalizing ms zs with
    | nil => simpa using h
    | cons h5 _ ih =>
      cases ms with
      | nil => simp at h
      | cons m ms =>
        cases h4 with
        | cons h6 h7 =>
          simp only [List.map_cons, List.cons.injEq] at h
          obtain ⟨e1, e2⟩ := h
          obtain ⟨l1, u1, p1, f1⟩ := h5
          obtain ⟨l2, u2, p2, f2⟩ := h6
          rw [← e1, l1] at l2
          have hl := Except.ok.inj l2
          simp only [List.flatten_cons] at h3
          obtain ⟨e3, e4⟩ := List.append_inj h3 hl
          rw [← e1, ← e3, f1] at f2
          rw [List.map_cons, List.map_cons, p1, p2, Except.ok.inj f2, ih _ _ e2 e4 h7]

/-! ### The theorems are not vacuous -/

/-- A positive vector and an unbounded scalar, the former in a dictionary of its own. -/
def exNest : Pattern :=
  .dict (.cons "d" (.dict (.cons "x" (.numeric .vector [2] (.int 0) (.flt .pinf) true none) .nil) true none)
    (.cons "s" (.numeric .scalar [1] (.flt .ninf) (.flt .pinf) true none) .nil)) false none

/-- The same leaves, side by side and under other keys. -/
def exFlat : Pattern :=
  .dict (.cons "a" (.numeric .vector [2] (.int 0) (.flt .pinf) true none)
    (.cons "b" (.numeric .scalar [1] (.flt .ninf) (.flt .pinf) true none) .nil)) false none

/-- A value of `exNest`. -/
def exNestVal : Val Flt := .dict [("s", .arr ⟨[1], [.fin 3]⟩), ("d", .dict [("x", .arr ⟨[2], [.fin 2, .fin 4]⟩)])]

/-- The corresponding value of `exFlat`. -/
def exFlatVal : Val Flt := .dict [("a", .arr ⟨[2], [.fin 2, .fin 4]⟩), ("b", .arr ⟨[1], [.fin 3]⟩)]

theorem exNest_built : Built exNest :=
  WF.built _ (by simp [exNest, Pattern.WF, WFEs, Entries.keys, Entries.toList, lock, PyNum.toFlt, Flt.lt])

theorem exFlat_built : Built exFlat :=
  WF.built _ (by simp [exFlat, Pattern.WF, WFEs, Entries.keys, Entries.toList, lock, PyNum.toFlt, Flt.lt])

/-- C129_regroup, C129_regroup_fold, C129_flatten: the hypotheses hold for these two, and the order of the keys of the value does not matter. -/
example : Built exNest ∧ Built exFlat ∧ Populated exNest ∧ Populated exFlat ∧ exNestVal.WF ∧ exFlatVal.WF ∧
    ((nameLeaves exNest).map fun l => (l.2, pick exNestVal l.1)) = ((nameLeaves exFlat).map fun l => (l.2, pick exFlatVal l.1)) ∧
    exNest ≠ exFlat ∧ exNest.flatten exNestVal (some false) none = .ok (vec [.fin 2, .fin 4, .fin 3]) ∧
    ∃ y, exNest.flatten exNestVal (some true) none = .ok y := by
  have h1 : Populated exNest := by simp [exNest, Populated, PopulatedEs]
  have h2 : exNestVal.WF := by simp [exNestVal, Val.WF, Val.WFEs, NDArray.WF]
  have hl : ∀ free y y', (Pattern.numeric .vector [2] (.int 0) (.flt .pinf) true none).flatten (.arr ⟨[2], [.fin 2, .fin 4]⟩) (some free) none = .ok y →
      (Pattern.numeric .scalar [1] (.flt .ninf) (.flt .pinf) true none).flatten (.arr ⟨[1], [.fin 3]⟩) (some free) none = .ok y' →
      exNest.flatten exNestVal (some free) none = .ok (vec (y.data ++ y'.data)) := by
    intro free y y' g1 g2
    refine (C129_flatten exNest_built h2 free none _).mpr ⟨h1, [y, y'], ?_, by simp⟩
    simp only [exNest, nameLeaves, nameLeavesEs, List.map_cons, List.map_nil, List.nil_append, List.append_nil, List.cons_append]
    exact .cons ⟨_, by simp [exNestVal, pick, List.lookup], g1⟩ (.cons ⟨_, by simp [exNestVal, pick, List.lookup], g2⟩ .nil)
  have a1 : Acc (.numeric .vector [2] (.int 0) (.flt .pinf) true none) (.arr (⟨[2], [.fin 2, .fin 4]⟩ : NDArray Flt)) none :=
    acc_numeric.mpr ⟨_, rfl, rfl, by simp [Elem.toFlt, PyNum.toFlt, Flt.lt, Flt.gt]⟩
  have a2 : Acc (.numeric .scalar [1] (.flt .ninf) (.flt .pinf) true none) (.arr (⟨[1], [.fin 3]⟩ : NDArray Flt)) none :=
    acc_numeric.mpr ⟨_, rfl, rfl, by simp [Elem.toFlt, PyNum.toFlt, Flt.lt, Flt.gt]⟩
  refine ⟨exNest_built, exFlat_built, h1, by simp [exFlat, Populated, PopulatedEs], h2, by simp [exFlatVal, Val.WF, Val.WFEs, NDArray.WF], ?_,
    by simp [exNest, exFlat], ?_, ?_⟩
  · simp [exNest, exFlat, nameLeaves, nameLeavesEs, exNestVal, exFlatVal, pick, List.lookup]
  · refine hl false (vec [.fin 2, .fin 4]) (vec [.fin 3]) ?_ ?_
    · rw [flatten_false, flattenNF_eq _ (by simp [Pattern.WF, PyNum.toFlt, Flt.lt]) _ _ (by simp [Val.WF, NDArray.WF]) (by simp [NoEmpty]) a1]
      rfl
    · rw [flatten_false, flattenNF_eq _ (by simp [Pattern.WF, PyNum.toFlt, Flt.lt]) _ _ (by simp [Val.WF, NDArray.WF]) (by simp [NoEmpty]) a2]
      rfl
  · exact ⟨_, hl true (vec (([.fin 2, .fin 4] : List Flt).map (unconstrain1 (PyNum.int 0).toFlt (PyNum.flt .pinf).toFlt)))
      (vec (([.fin 3] : List Flt).map (unconstrain1 (PyNum.flt .ninf).toFlt (PyNum.flt .pinf).toFlt)))
      (by rw [flatten_true]; exact numeric_flattenFree_iff.mpr ⟨a1, _, rfl, rfl⟩)
      (by rw [flatten_true]; exact numeric_flattenFree_iff.mpr ⟨a2, _, rfl, rfl⟩)⟩

theorem exNest_leaf (R : Pattern → Val Flt → NDArray Flt → Prop) {A B : NDArray Flt}
    (h1 : R (.numeric .vector [2] (.int 0) (.flt .pinf) true none) (.arr ⟨[2], [.fin 2, .fin 4]⟩) A)
    (h2 : R (.numeric .scalar [1] (.flt .ninf) (.flt .pinf) true none) (.arr ⟨[1], [.fin 3]⟩) B) :
    List.Forall₂ (fun (l : List String × Pattern) (b : Nat × Nat × NDArray Flt) => ∃ w, pick exNestVal l.1 = some w ∧ R l.2 w b.2.2) (nameLeaves exNest)
      [(2, 2, A), (1, 1, B)] := by
  simp only [exNest, nameLeaves, nameLeavesEs, List.map_cons, List.map_nil, List.nil_append, List.append_nil, List.cons_append]
  exact .cons ⟨_, by simp [exNestVal, pick, List.lookup], h1⟩ (.cons ⟨_, by simp [exNestVal, pick, List.lookup], h2⟩ .nil)

/-- C129_freeing_jacobian and C129_unfreeing_jacobian: leaves with Jacobians of the right shapes, a 2 × 2 and a 1 × 1 block. -/
example (ad : AutogradJacobian) : ∃ Js Ks : List (Nat × Nat × NDArray Flt),
    (∀ b ∈ Js, b.2.2.shape = [b.1, b.2.1] ∧ b.2.2.WF) ∧ (∀ b ∈ Ks, b.2.2.shape = [b.1, b.2.1] ∧ b.2.2.WF) ∧
    Js.map (fun b => (b.1, b.2.1)) = [(2, 2), (1, 1)] ∧ Ks.map (fun b => (b.1, b.2.1)) = [(2, 2), (1, 1)] ∧
    List.Forall₂ (fun (l : List String × Pattern) b => ∃ w, pick exNestVal l.1 = some w ∧ freeingJacobian ad l.2 w = .ok b.2.2) (nameLeaves exNest) Js ∧
    List.Forall₂ (fun (l : List String × Pattern) b => ∃ w, pick exNestVal l.1 = some w ∧ unfreeingJacobian ad l.2 w = .ok b.2.2) (nameLeaves exNest) Ks :=
  ⟨_, _, by simp [Numeric.freeingJacobian, diagMat, ofFn2, NDArray.WF, List.range_succ],
    by simp [Numeric.unfreeingJacobian, diagMat, ofFn2, NDArray.WF, List.range_succ], rfl, rfl,
    exNest_leaf (fun p w b => freeingJacobian ad p w = .ok b) (A := Numeric.freeingJacobian _ _ _) (B := Numeric.freeingJacobian _ _ _) rfl rfl,
    exNest_leaf (fun p w b => unfreeingJacobian ad p w = .ok b) (A := Numeric.unfreeingJacobian _ _ _) (B := Numeric.unfreeingJacobian _ _ _) rfl rfl⟩

/-- C129_log_det_freeing: all leaves have a determinant. -/
example : ∃ d e, logAbsDetFreeing exNest exNestVal = .ok d ∧ logAbsDetUnfreeing exNest exNestVal = .ok e := by
  simp [exNest, exNestVal, logAbsDetFreeing, logAbsDetFreeingEs, logAbsDetUnfreeing, logAbsDetUnfreeingEs, Val.asDict, Val.asArr, List.lookup, bind,
    Except.bind, pure, Except.pure]

/-- C129_fold, C129_fold_ok: a vector that can be folded. -/
example : ∃ v, exNest.fold (vec [.fin 2, .fin 4, .fin 3]) (some true) none = .ok v := by
  obtain ⟨v, h, _⟩ := free_vec exNest exNest_built.wf (by simp [exNest, FiniteLb, FiniteLbEs]) [2, 4, 3] (by simp [exNest, flatLen, flatLenEs])
  exact ⟨v, by rw [fold_true]; simpa using h⟩

end Paragami
