import Verif.Proofs.NonfreeTrip

/-! # Patterns obtainable through the API are exactly the well-formed ones -/

set_option linter.unusedSimpArgs false

namespace Paragami

namespace Pattern
open NDArray

theorem ge_ninf (x : Flt) : x.ge .ninf = true ↔ x.NotNaN := by
  cases x <;> simp [Flt.ge, Flt.le, Flt.lt, Flt.eq]

theorem le_pinf (x : Flt) : x.le .pinf = true ↔ x.NotNaN := by
  cases x <;> simp [Flt.ge, Flt.le, Flt.lt, Flt.eq]

theorem ge_eq_not_lt {x y : Flt} (hx : x.NotNaN) (hy : y.NotNaN) : x.ge y = !(x.lt y) := by
  cases x <;> cases y <;> simp_all [Flt.ge, Flt.le, Flt.lt, Flt.eq]
  next a b =>
    rcases lt_trichotomy a b with h | h | h
    · simp [h, h.not_gt, h.ne']
    · simp [h]
    · simp [h, h.not_gt, h.le]

theorem mkNumeric_ok {cls s lb ub dv fd p} :
    mkNumeric cls s lb ub dv fd = .ok p ↔
      p = .numeric cls s lb ub dv fd ∧ s ≠ [] ∧ lb.toFlt.NotNaN ∧ ub.toFlt.NotNaN ∧
        lb.toFlt.lt ub.toFlt = true := by
  unfold mkNumeric
  simp only [bind, Except.bind, throw, throwThe, MonadExceptOf.throw, pure, Except.pure]
  by_cases h1 : lb.toFlt.ge .ninf = true
  · by_cases h2 : ub.toFlt.le .pinf = true
    · have n1 := (ge_ninf _).mp h1
      have n2 := (le_pinf _).mp h2
      rw [ge_eq_not_lt n1 n2]
      by_cases h3 : lb.toFlt.lt ub.toFlt = true
      · simp only [h1, h2, h3, Bool.not_true, Bool.false_eq_true, if_false, n1, n2, true_and, and_true]
        by_cases hs : s = []
        · subst hs
          have : ∀ v, (Pattern.numeric cls [] lb ub dv fd).foldNF
              (vec (List.range ((Pattern.numeric cls [] lb ub dv fd).flatLen true))) (some false) ≠ .ok v := by
            intro v hv
            simp only [foldNF] at hv
            obtain ⟨a, ha, _⟩ := bind_ok hv
            rw [numeric_foldNF_ok] at ha
            have := (numeric_validate_true.mp ha.2.2.2).2.1
            exact atleast1d_shape_ne_nil _ this
          split
          · simp
          · next hv => exact absurd hv (this _)
        · have h : ∀ free, (Pattern.numeric cls s lb ub dv fd).foldNF
              (vec (List.range ((Pattern.numeric cls s lb ub dv fd).flatLen free))) (some false) =
              .ok (.arr ⟨s, List.range s.prod⟩) := by
            intro free
            have : Numeric.foldNF s lb.toFlt ub.toFlt dv (vec (List.range s.prod)) (some false) =
                .ok ⟨s, List.range s.prod⟩ := by
              rw [numeric_foldNF_ok]
              refine ⟨rfl, by simp, rfl, ?_⟩
              rw [numeric_validate_true]
              exact ⟨rfl, by rw [atleast1d_of_ne hs], by simp⟩
            simp only [foldNF, flatLen, this]; rfl
          rw [h, h]
          simp only [Except.ok.injEq, hs, ne_eq, not_false_eq_true, and_true]
          exact eq_comm
      · simp [h1, h2, h3, n1, n2]
    · have n2 : ¬ ub.toFlt.NotNaN := fun h => h2 ((le_pinf _).mpr h)
      simp [h1, h2, n2]
  · have n1 : ¬ lb.toFlt.NotNaN := fun h => h1 ((ge_ninf _).mpr h)
    simp [h1, n1]

theorem lock_lock (p : Pattern) : p.lock.lock = p.lock := by cases p <;> simp [lock]

theorem wf_lock {p : Pattern} (h : p.WF) : p.lock.WF := by cases p <;> simp_all [lock, WF]

theorem mem_keys_set {es : Entries} {k k' : String} {p : Pattern} :
    k' ∈ (es.set k p).keys ↔ k' ∈ es.keys ∨ k' = k := by
  match es with
  | .nil => simp [Entries.set, Entries.keys, Entries.toList]
  | .cons k0 p0 r =>
    have ih := mem_keys_set (es := r) (k := k) (k' := k') (p := p)
    simp only [Entries.set]
    split
    · next h => subst h; simp only [Entries.keys, Entries.toList, List.map_cons, List.mem_cons]; tauto
    · simp only [Entries.keys, Entries.toList, List.map_cons, List.mem_cons] at ih ⊢; tauto

theorem set_wf {es : Entries} {k : String} {p : Pattern} (hk : es.keys.Nodup) (hes : WFEs es) (hp : p.WF)
    (hl : p.lock = p) : (es.set k p).keys.Nodup ∧ WFEs (es.set k p) := by
  match es with
  | .nil => simp [Entries.set, Entries.keys, Entries.toList, WFEs, hp, hl]
  | .cons k0 p0 r =>
    obtain ⟨hk1, hk2⟩ := nodup_keys_cons hk
    simp only [WFEs] at hes
    simp only [Entries.set]
    split
    · refine ⟨?_, by simp only [WFEs]; exact ⟨hp, hl, hes.2.2⟩⟩
      simpa [Entries.keys, Entries.toList] using hk
    · next hne =>
      have ih := set_wf (es := r) (k := k) hk2 hes.2.2 hp hl
      have hm := mem_keys_set (es := r) (k := k) (k' := k0) (p := p)
      refine ⟨?_, by simp only [WFEs]; exact ⟨hes.1, hes.2.1, ih.2⟩⟩
      have : k0 ∉ (r.set k p).keys := by rw [hm]; push Not; exact ⟨hk1, hne⟩
      have h2 := ih.1
      simp only [Entries.keys, Entries.toList, List.map_cons, List.nodup_cons] at this h2 ⊢
      exact ⟨this, h2⟩

theorem mem_keys_erase {es : Entries} {k k' : String} (h : k' ∈ (es.erase k).keys) : k' ∈ es.keys := by
  match es with
  | .nil => simpa [Entries.erase] using h
  | .cons k0 p0 r =>
    have ih := mem_keys_erase (es := r) (k := k) (k' := k')
    simp only [Entries.erase] at h
    split at h
    · simp only [Entries.keys, Entries.toList, List.map_cons, List.mem_cons] at h ⊢; tauto
    · simp only [Entries.keys, Entries.toList, List.map_cons, List.mem_cons] at h ih ⊢; tauto

theorem erase_wf {es : Entries} {k : String} (hk : es.keys.Nodup) (hes : WFEs es) :
    (es.erase k).keys.Nodup ∧ WFEs (es.erase k) := by
  match es with
  | .nil => simp [Entries.erase, Entries.keys, Entries.toList, WFEs]
  | .cons k0 p0 r =>
    obtain ⟨hk1, hk2⟩ := nodup_keys_cons hk
    simp only [WFEs] at hes
    simp only [Entries.erase]
    split
    · exact ⟨hk2, hes.2.2⟩
    · have ih := erase_wf (es := r) (k := k) hk2 hes.2.2
      refine ⟨?_, by simp only [WFEs]; exact ⟨hes.1, hes.2.1, ih.2⟩⟩
      have : k0 ∉ (r.erase k).keys := fun h => hk1 (mem_keys_erase h)
      have h2 := ih.1
      simp only [Entries.keys, Entries.toList, List.map_cons, List.nodup_cons] at this h2 ⊢
      exact ⟨this, h2⟩

/-- Everything the public API can build is well formed. -/
theorem Built.wf {p : Pattern} (h : Built p) : p.WF := by
  induction h with
  | numericArray h =>
    obtain ⟨rfl, h1, h2, h3, h4⟩ := mkNumeric_ok.mp h
    simp [WF, h1, h2, h3, h4]
  | numericVector h =>
    obtain ⟨rfl, h1, h2, h3, h4⟩ := mkNumeric_ok.mp h
    simp [WF, h2, h3, h4]
  | numericScalar h =>
    obtain ⟨rfl, h1, h2, h3, h4⟩ := mkNumeric_ok.mp h
    simp [WF, h2, h3, h4]
  | simplex h =>
    unfold mkSimplex at h
    split at h
    · cases h
    · cases h; simp only [WF]; omega
  | psd h =>
    unfold mkPSD at h
    split at h
    · cases h
    · next h' => cases h; simp only [WF]; simpa using h'
  | array hb h ih =>
    unfold mkArray at h
    split at h
    · cases h
    · next h1 =>
      split at h
      · cases h
      · next h2 => cases h; simp only [WF]; exact ⟨h2, by simpa using h1, ih⟩
  | dict fd => simp [mkDict, WF, WFEs, Entries.keys, Entries.toList]
  | set hd hp h ihd ihp =>
    rename_i d k p d'
    cases d with
    | dict es locked fd =>
      simp only [setItem] at h
      split at h
      · cases h
      · cases h
        simp only [WF] at ihd ⊢
        exact set_wf ihd.1 ihd.2 (wf_lock ihp) (lock_lock p)
    | _ => simp [setItem] at h
  | del hd h ihd =>
    rename_i d k d'
    cases d with
    | dict es locked fd =>
      simp only [delItem] at h
      split at h
      · cases h
      · split at h
        · cases h
        · cases h
          simp only [WF] at ihd ⊢
          exact erase_wf ihd.1 ihd.2
    | _ => simp [delItem] at h
  | lock hp ih => exact wf_lock ih

/-- Append members one by one. -/
def appendEs : Entries → Entries → Entries
  | .nil, es => es
  | .cons k p r, es => .cons k p (appendEs r es)

theorem set_append {es : Entries} {k : String} {p : Pattern} (h : k ∉ es.keys) :
    es.set k p = appendEs es (.cons k p .nil) := by
  match es with
  | .nil => rfl
  | .cons k0 p0 r =>
    simp only [Entries.keys, Entries.toList, List.map_cons, List.mem_cons, not_or] at h
    simp only [Entries.set, if_neg (Ne.symm h.1), appendEs]
    rw [set_append h.2]

theorem append_assoc (a b c : Entries) : appendEs (appendEs a b) c = appendEs a (appendEs b c) := by
  match a with
  | .nil => rfl
  | .cons k p r => simp only [appendEs, append_assoc r b c]

theorem append_nil (a : Entries) : appendEs a .nil = a := by
  match a with
  | .nil => rfl
  | .cons k p r => simp only [appendEs, append_nil r]

theorem keys_append (a b : Entries) : (appendEs a b).keys = a.keys ++ b.keys := by
  match a with
  | .nil => rfl
  | .cons k p r =>
    have ih := keys_append r b
    simp only [appendEs, Entries.keys, Entries.toList, List.map_cons, List.cons_append] at ih ⊢
    rw [ih]

/-- Conversely, every well-formed pattern can be built through the public API. -/
theorem WF.built (p : Pattern) (h : p.WF) : Built p := by
  revert h
  induction p using Pattern.ind
    (Q := fun es => WFEs es → ∀ pre fd, Built (.dict pre false fd) → (appendEs pre es).keys.Nodup →
      Built (.dict (appendEs pre es) false fd)) with
  | hnum c s lb ub dv fd =>
    intro h
    simp only [WF] at h
    have key : mkNumeric c s lb ub dv fd = .ok (.numeric c s lb ub dv fd) :=
      mkNumeric_ok.mpr ⟨rfl, h.1, h.2.2.2⟩
    cases c with
    | array => exact .numericArray key
    | vector =>
      obtain ⟨n, rfl⟩ := List.length_eq_one_iff.mp (h.2.1 rfl)
      exact .numericVector key
    | scalar =>
      obtain rfl := h.2.2.1 rfl
      exact .numericScalar key
  | hsim k s dv fd =>
    intro h
    simp only [WF] at h
    refine .simplex (size := k) (ashape := s) (dv := dv) (fd := fd) ?_
    unfold mkSimplex
    rw [if_neg (by omega)]; rfl
  | hpsd n lb dv fd =>
    intro h
    simp only [WF] at h
    refine .psd (size := n) (lb := lb) (dv := dv) (fd := fd) ?_
    unfold mkPSD
    rw [if_neg (by rw [h]; exact Bool.false_ne_true)]
  | harr s b fd ih =>
    intro h
    simp only [WF] at h
    refine .array (ih h.2.2) (ashape := s) (fd := fd) ?_
    unfold mkArray
    rw [if_neg (by simp [h.2.1]), if_neg h.1]
  | hdict es l fd ih =>
    intro h
    simp only [WF] at h
    have := ih h.2 .nil fd (.dict fd) h.1
    simp only [appendEs] at this
    cases l with
    | false => exact this
    | true => exact .lock this
  | hnil _ pre fd hb _ => rw [append_nil]; exact hb
  | hcons k p r ihp ihr hw pre fd hb hk =>
    simp only [WFEs] at hw
    rw [show Entries.cons k p r = appendEs (.cons k p .nil) r from rfl, ← append_assoc] at hk ⊢
    have hkp : k ∉ pre.keys := by
      rw [keys_append, keys_append] at hk
      have := (List.nodup_append.mp hk).1
      rw [List.nodup_append] at this
      intro hm
      exact this.2.2 k hm k (by simp [Entries.keys, Entries.toList]) rfl
    apply ihr hw.2.2 _ _ _ hk
    refine .set (k := k) hb (ihp hw.1) ?_
    simp only [setItem, hw.2.1, set_append hkp]
    simp

end Pattern

end Paragami
