import Verif.Proofs.Attributes
import Verif.Props.Containers

/-!
# What `default_validate` matters for
-/

namespace Paragami.Attributes
open Pattern

variable {α : Type} [Elem α]

theorem shape_validating (b : Bool) (p : Pattern) : (validating b p).shape = p.shape := by
  induction p using Pattern.ind (Q := fun _ => True) with
  | harr s q fd ih => simp only [validating, Pattern.shape, ih]
  | hnil => trivial
  | hcons => trivial
  | _ => simp only [validating, Pattern.shape]

theorem flatLen_validating (c : Bool) (p : Pattern) (b : Bool) : (validating c p).flatLen b = p.flatLen b := by
  induction p using Pattern.ind (Q := fun es => flatLenEs (validatingEs c es) b = flatLenEs es b) with
  | hnum => simp only [validating, flatLen]
  | hsim => simp only [validating, flatLen]
  | hpsd => simp only [validating, flatLen]
  | harr s q fd ih => simp only [validating, flatLen, ih]
  | hdict es l fd ih => simp only [validating, flatLen, ih]
  | hnil => simp only [validatingEs]
  | hcons k q r ihp ihr => simp only [validatingEs, flatLenEs, ihp, ihr]

theorem freeDefault_validating (b : Bool) (p : Pattern) : (validating b p).freeDefault = p.freeDefault := by cases p <;> rfl

theorem validate_validating (b : Bool) (p : Pattern) : ∀ (v : Val α) (vv : Option Bool),
    (validating b p).validate v vv = p.validate v (some (vv.getD b)) := by
  induction p using Pattern.ind (Q := fun es => ∀ (vs : List (String × Val α)) (vv : Option Bool),
      validateEs (validatingEs b es) vs vv = validateEs es vs (some (vv.getD b))) with
  | hnum => intros; simp only [validating, Pattern.validate, Numeric.validate, Option.getD_some]
  | hsim => intros; simp only [validating, Pattern.validate, Simplex.validate, Option.getD_some]
  | hpsd => intros; simp only [validating, Pattern.validate, PSD.validate, Option.getD_some]
  | harr s q fd ih => intro v vv; simp only [validating, Pattern.validate, ih, shape_validating]
  | hdict es l fd ih => intro v vv; simp only [validating, Pattern.validate, ih]
  | hnil vs vv => simp only [validatingEs]; rw [validateEs, validateEs]
  | hcons k q r ihp ihr vs vv =>
    simp only [validatingEs]
    rw [validateEs, validateEs]
    simp only [ihp, ihr]

theorem foldNF_validating (b : Bool) (p : Pattern) : ∀ (x : NDArray α) (vv : Option Bool),
    (validating b p).foldNF x vv = p.foldNF x (some (vv.getD b)) := by
  induction p using Pattern.ind (Q := fun es => ∀ (x : NDArray α) (vv : Option Bool) (off : Nat),
      foldNFEs (validatingEs b es) x vv off = foldNFEs es x (some (vv.getD b)) off) with
  | hnum => intros; simp only [validating, foldNF, Numeric.foldNF, Numeric.validate, Option.getD_some]; rfl
  | hsim => intros; simp only [validating, foldNF, Simplex.foldNF, Simplex.validate, Option.getD_some]
  | hpsd => intros; simp only [validating, foldNF, PSD.foldNF, PSD.validate, Option.getD_some]
  | harr s q fd ih =>
    intro x vv
    have hv := validate_validating (α := α) b (.array s q fd)
    simp only [validating] at hv
    simp only [validating]
    rw [foldNF_array_unfold, foldNF_array_unfold]
    simp only [ih, shape_validating, flatLen_validating, hv]
  | hdict es l fd ih =>
    intro x vv
    have hv := validate_validating (α := α) b (.dict es l fd)
    have hl := fun c => flatLen_validating b (.dict es l fd) c
    simp only [validating, flatLen] at hv hl
    simp only [validating]
    rw [foldNF_dict_unfold, foldNF_dict_unfold]
    simp only [ih, hl, hv]
  | hnil x vv off => simp only [validatingEs]; rw [foldNFEs, foldNFEs]
  | hcons k q r ihp ihr x vv off =>
    simp only [validatingEs]
    rw [foldNFEs, foldNFEs]
    simp only [ihp, ihr, flatLen_validating]

theorem foldFree_validating (b : Bool) (p : Pattern) : ∀ (x : NDArray Flt), (validating b p).foldFree x = p.foldFree x := by
  induction p using Pattern.ind (Q := fun es => ∀ (x : NDArray Flt) off, foldFreeEs (validatingEs b es) x off = foldFreeEs es x off) with
  | hnum => intros; simp only [validating, foldFree]
  | hsim => intros; simp only [validating, foldFree]
  | hpsd => intros; simp only [validating, foldFree]
  | harr s q fd ih =>
    intro x
    simp only [validating]
    rw [foldFree_array_unfold, foldFree_array_unfold]
    simp only [ih, shape_validating, flatLen_validating]
  | hdict es l fd ih =>
    intro x
    have hl := fun c => flatLen_validating b (.dict es l fd) c
    simp only [validating, flatLen] at hl
    simp only [validating]
    rw [foldFree_dict_unfold, foldFree_dict_unfold]
    simp only [ih, hl]
  | hnil x off => simp only [validatingEs]
  | hcons k q r ihp ihr x off =>
    simp only [validatingEs]
    rw [foldFreeEs, foldFreeEs]
    simp only [ihp, ihr, flatLen_validating]

theorem flattenNF_validating (b : Bool) (p : Pattern) : ∀ (v : Val Flt) (vv : Option Bool),
    (validating b p).flattenNF v vv = p.flattenNF v (some (vv.getD b)) := by
  induction p using Pattern.ind (Q := fun es => ∀ (vs : List (String × Val Flt)) (vv : Option Bool),
      flattenNFEs (validatingEs b es) vs vv = flattenNFEs es vs (some (vv.getD b))) with
  | hnum => intros; simp only [validating, flattenNF, Numeric.flattenNF, Numeric.validate, Option.getD_some]; rfl
  | hsim => intros; simp only [validating, flattenNF, Simplex.flattenNF, Simplex.validate, Option.getD_some]
  | hpsd => intros; simp only [validating, flattenNF, PSD.flattenNF, PSD.validate, Option.getD_some]
  | harr s q fd ih =>
    intro v vv
    have hv := validate_validating (α := Flt) b (.array s q fd)
    simp only [validating] at hv
    simp only [validating]
    rw [flattenNF_array_unfold, flattenNF_array_unfold]
    simp only [ih, hv]
  | hdict es l fd ih =>
    intro v vv
    have hv := validate_validating (α := Flt) b (.dict es l fd)
    simp only [validating] at hv
    simp only [validating]
    rw [flattenNF_dict_unfold, flattenNF_dict_unfold]
    simp only [ih, hv]
  | hnil vs vv => simp only [validatingEs]; rw [flattenNFEs, flattenNFEs]
  | hcons k q r ihp ihr vs vv =>
    simp only [validatingEs]
    rw [flattenNFEs, flattenNFEs]
    simp only [ihp, ihr]

theorem flattenFree_validating (b : Bool) (p : Pattern) : ∀ (v : Val Flt) (vv : Option Bool),
    (validating b p).flattenFree v vv = p.flattenFree v (some (vv.getD b)) := by
  induction p using Pattern.ind (Q := fun es => ∀ (vs : List (String × Val Flt)) (vv : Option Bool),
      flattenFreeEs (validatingEs b es) vs vv = flattenFreeEs es vs (some (vv.getD b))) with
  | hnum => intros; simp only [validating, flattenFree, Numeric.flattenFree, Numeric.validate, Option.getD_some]; rfl
  | hsim => intros; simp only [validating, flattenFree, Simplex.flattenFree, Simplex.validate, Option.getD_some]
  | hpsd => intros; simp only [validating, flattenFree, PSD.flattenFree, PSD.validate, Option.getD_some]
  | harr s q fd ih =>
    intro v vv
    have hv := validate_validating (α := Flt) b (.array s q fd)
    simp only [validating] at hv
    simp only [validating]
    rw [flattenFree_array_unfold, flattenFree_array_unfold]
    simp only [ih, hv]
  | hdict es l fd ih =>
    intro v vv
    have hv := validate_validating (α := Flt) b (.dict es l fd)
    simp only [validating] at hv
    simp only [validating]
    rw [flattenFree_dict_unfold, flattenFree_dict_unfold]
    simp only [ih, hv]
  | hnil vs vv => simp only [validatingEs]; rw [flattenFreeEs, flattenFreeEs]
  | hcons k q r ihp ihr vs vv =>
    simp only [validatingEs]
    rw [flattenFreeEs, flattenFreeEs]
    simp only [ihp, ihr]

theorem fold_validating (b : Bool) (p : Pattern) (x : NDArray Flt) (free vv : Option Bool) :
    (validating b p).fold x free vv = p.fold x free (some (vv.getD b)) := by
  simp only [Pattern.fold, freeDefault_validating, foldFree_validating, foldNF_validating]

theorem flatten_validating (b : Bool) (p : Pattern) (v : Val Flt) (free vv : Option Bool) :
    (validating b p).flatten v free vv = p.flatten v free (some (vv.getD b)) := by
  simp only [Pattern.flatten, freeDefault_validating, flattenFree_validating, flattenNF_validating]

mutual
theorem validating_validate (i : Nat) (b c : Bool) : ∀ t : Tree, validating c (t.validate i b).pattern = validating c t.pattern
  | .leaf j p => by
    rw [Tree.validate, Tree.pattern, Tree.pattern]
    split_ifs
    · cases p <;> rfl
    · rfl
  | .array j s t fd => by
    rw [Tree.validate, Tree.pattern, Tree.pattern, validating, validating, validating_validate i b c t]
  | .dict j es l fd => by
    rw [Tree.validate, Tree.pattern, Tree.pattern, validating, validating, validatingEs_validate i b c es]
theorem validatingEs_validate (i : Nat) (b c : Bool) : ∀ es : Branches, validatingEs c (es.validate i b).entries = validatingEs c es.entries
  | .nil => rfl
  | .cons k t r => by
    rw [Branches.validate, Branches.entries, Branches.entries, validatingEs, validatingEs, validating_validate i b c t, validatingEs_validate i b c r]
end

mutual
/-- If all leaves are the object `i`, all of them get the new value. -/
theorem validate_only (h : Heap) (hh : Inv h) (i : Nat) (b : Bool) : ∀ (t : Tree) {j : Nat}, Stands h j t → t.Only i →
    (t.validate i b).pattern = validating b t.pattern
  | .leaf j p, _, .leaf h1, ho => by
    have ho : j = i := ho
    subst ho
    rw [Tree.validate, if_pos rfl, Tree.pattern, Tree.pattern]
    have := (hh.node _ _ h1).2
    cases p with
    | array s q fd => exact absurd rfl (this.2 s q fd)
    | dict => cases this.1
    | _ => rfl
  | .array j s t fd, _, .array h1 ht, ho => by
    rw [Tree.validate, Tree.pattern, Tree.pattern, validating, validate_only h hh i b t ht ho]
  | .dict j es l fd, _, .dict h1 hs, ho => by
    rw [Tree.validate, Tree.pattern, Tree.pattern, validating, validate_onlyEs h hh i b es hs ho]
theorem validate_onlyEs (h : Heap) (hh : Inv h) (i : Nat) (b : Bool) : ∀ (es : Branches) {ms : List (String × Nat)}, StandsEs h ms es → es.Only i →
    (es.validate i b).entries = validatingEs b es.entries
  | .nil, _, .nil, _ => rfl
  | .cons k t r, _, .cons ht hs, ho => by
    rw [Branches.validate, Branches.entries, Branches.entries, validatingEs, validate_only h hh i b t ht ho.1, validate_onlyEs h hh i b r hs ho.2]
end

mutual
theorem strip_free (i : Nat) (fd : Option Bool) : ∀ t : Tree, Spec.strip (t.free i fd).pattern = Spec.strip t.pattern
  | .leaf j p => by
    rw [Tree.free, Tree.pattern, Tree.pattern]
    split_ifs
    · cases p <;> rfl
    · rfl
  | .array j s t fd' => by
    rw [Tree.free, Tree.pattern, Tree.pattern, Spec.strip, Spec.strip, strip_free i fd t]
  | .dict j es l fd' => by
    rw [Tree.free, Tree.pattern, Tree.pattern, Spec.strip, Spec.strip, stripEs_free i fd es]
theorem stripEs_free (i : Nat) (fd : Option Bool) : ∀ es : Branches, Spec.stripEs (es.free i fd).entries = Spec.stripEs es.entries
  | .nil => rfl
  | .cons k t r => by
    rw [Branches.free, Branches.entries, Branches.entries, Spec.stripEs, Spec.stripEs, strip_free i fd t, stripEs_free i fd r]
end

theorem freeDefault_free (i : Nat) (fd : Option Bool) (t : Tree) (h : t.id ≠ i) : (t.free i fd).pattern.freeDefault = t.pattern.freeDefault := by
  cases t <;> simp_all [Tree.free, Tree.pattern, Tree.id, Pattern.freeDefault]

theorem freeDefault_free_self (fd : Option Bool) (t : Tree) : (t.free t.id fd).pattern.freeDefault = fd := by
  cases t with
  | leaf j p => cases p <;> simp [Tree.free, Tree.pattern, Tree.id, Pattern.freeDefault, setFree]
  | array => simp [Tree.free, Tree.pattern, Tree.id, Pattern.freeDefault]
  | dict => simp [Tree.free, Tree.pattern, Tree.id, Pattern.freeDefault]

mutual
theorem validate_untouched (i : Nat) (b : Bool) : ∀ t : Tree, ¬ t.Has i → t.validate i b = t
  | .leaf j p, h => by rw [Tree.validate, if_neg (show ¬ j = i from h)]
  | .array j s t fd, h => by rw [Tree.validate, validate_untouched i b t fun e => h (.inr e)]
  | .dict j es l fd, h => by rw [Tree.validate, validate_untouchedEs i b es fun e => h (.inr e)]
theorem validate_untouchedEs (i : Nat) (b : Bool) : ∀ es : Branches, ¬ es.Has i → es.validate i b = es
  | .nil, _ => rfl
  | .cons k t r, h => by
    rw [Branches.validate, validate_untouched i b t fun e => h (.inl e), validate_untouchedEs i b r fun e => h (.inr e)]
end

mutual
theorem free_untouched (i : Nat) (fd : Option Bool) : ∀ t : Tree, ¬ t.Has i → t.free i fd = t
  | .leaf j p, h => by rw [Tree.free, if_neg (show ¬ j = i from h)]
  | .array j s t fd', h => by rw [Tree.free, free_untouched i fd t (fun e => h (.inr e)), if_neg fun e => h (.inl e)]
  | .dict j es l fd', h => by rw [Tree.free, free_untouchedEs i fd es (fun e => h (.inr e)), if_neg fun e => h (.inl e)]
theorem free_untouchedEs (i : Nat) (fd : Option Bool) : ∀ es : Branches, ¬ es.Has i → es.free i fd = es
  | .nil, _ => rfl
  | .cons k t r, h => by
    rw [Branches.free, free_untouched i fd t fun e => h (.inl e), free_untouchedEs i fd r fun e => h (.inr e)]
end

end Paragami.Attributes
