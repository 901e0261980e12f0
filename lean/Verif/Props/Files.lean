import Verif.Model.Files
import Verif.Props.Json

/-! # C35: `save_folded` and `load_folded` -/

namespace Paragami

namespace Files
open Pattern NDArray

variable {E : Type}

theorem append_inj {a b c : String} (h : a ++ c = b ++ c) : a = b := by
  have := congrArg String.toList h
  simp only [String.toList_append] at this
  exact String.toList_inj.mp (List.append_cancel_right this)

theorem stripNpy_append (k : String) : stripNpy (k ++ ".npy") = k := by
  have h : (".npy".toList.isSuffixOf (k ++ ".npy").toList) = true := by
    rw [List.isSuffixOf_iff_suffix, String.toList_append]
    exact List.suffix_append _ _
  rw [stripNpy, if_pos h, String.toList_append]
  have h2 : (".npy".toList).length = 4 := by decide
  rw [List.length_append, h2, Nat.add_sub_cancel, List.take_left]
  exact String.ofList_toList

theorem lookup_members (kw : List (String × Item E)) (k : String) :
    (kw.map fun m => (m.1 ++ ".npy", m.2)).lookup (k ++ ".npy") = kw.lookup k := by
  induction kw with
  | nil => rfl
  | cons m kw ih =>
    obtain ⟨k', i⟩ := m
    simp only [List.map_cons, List.lookup_cons, ih]
    have : (k ++ ".npy" == k' ++ ".npy") = (k == k') := by
      rw [Bool.eq_iff_iff, beq_iff_eq, beq_iff_eq]
      exact ⟨append_inj, fun h => by rw [h]⟩
    rw [this]

/-- `data[k]` in an archive written by `np.savez`. -/
theorem getItem_savez (kw : List (String × Item E)) {k : String} {i : Item E} (h : kw.lookup k = some i)
    (hk : ∀ m ∈ kw, k ≠ m.1 ++ ".npy") : getItem (kw.map fun m => (m.1 ++ ".npy", m.2)) k = .ok i := by
  have h1 : ((kw.map fun m => (m.1 ++ ".npy", m.2)).map (·.1)).contains k = false := by
    rw [Bool.eq_false_iff, ne_eq, List.contains_iff_mem]
    simp only [List.map_map, List.mem_map, Function.comp, not_exists, not_and]
    exact fun m hm e => hk m hm e.symm
  have h2 : ((kw.map fun m => (m.1 ++ ".npy", m.2)).map fun m => stripNpy m.1).contains k = true := by
    rw [List.contains_iff_mem]
    simp only [List.map_map, List.mem_map, Function.comp, stripNpy_append]
    rw [List.lookup_eq_some_iff] at h
    obtain ⟨l1, l2, rfl, -⟩ := h
    exact ⟨(k, i), by simp, rfl⟩
  rw [getItem, if_neg (by rw [h1]; exact Bool.false_ne_true), if_pos h2, lookup_members, h]

theorem saveFolded_ok {fs fs' : FS E} {file : String} {v : Val Flt} {p : Pattern} {argk : List (String × E)}
    (h : saveFolded fs file v p argk = (.ok (), fs')) : ∃ x, p.flatten v (some false) none = .ok x ∧
      (∀ a ∈ argk, a.1 ≠ "flat_val" ∧ a.1 ≠ "pattern_json") ∧
      fs' = savez fs file (("flat_val", .flat x) :: ("pattern_json", .json p.toJson) :: argk.map fun a => (a.1, .extra a.2)) := by
  simp only [saveFolded] at h
  split at h
  · cases h
  · split at h
    · cases h
    · rename_i x hx
      split at h
      · cases h
      · rename_i hn
        simp only [Prod.mk.injEq, true_and] at h
        refine ⟨x, hx, fun a ha => ?_, h.symm⟩
        simp only [List.any_map, List.any_eq_true, Function.comp, List.contains_iff_mem, not_exists, not_and] at hn
        have := hn a ha
        simpa using this

/-- The operation leaves the file of this name alone. -/
def Untouched (name : String) : Op E → Prop
  | .save file _ _ _ => storedName file ≠ name
  | .write n _ => n ≠ name
  | .delete n => n ≠ name

theorem apply_untouched {fs : FS E} {name : String} {op : Op E} (h : Untouched name op) : op.apply fs name = fs name := by
  cases op with
  | save file v p argk =>
    simp only [Op.apply, saveFolded]
    split
    · rfl
    · split
      · rfl
      · split
        · rfl
        · simp only [savez, if_neg (Ne.symm h)]
  | write n a => simp only [Op.apply, if_neg (Ne.symm h)]
  | delete n => simp only [Op.apply, if_neg (Ne.symm h)]

theorem foldl_untouched {fs : FS E} {name : String} {ops : List (Op E)} (h : ∀ op ∈ ops, Untouched name op) :
    (ops.foldl Op.apply fs) name = fs name := by
  induction ops generalizing fs with
  | nil => rfl
  | cons op ops ih =>
    rw [List.foldl_cons, ih (fun o ho => h o (List.mem_cons_of_mem _ ho)), apply_untouched (h op (List.mem_cons_self ..))]

/-- **C35.** After a successful `save_folded`, and any number of other operations that do not touch that file, `load_folded` of the
stored file returns the value (restricted to the keys of the pattern), the pattern as far as JSON keeps it, and the archive. -/
theorem C35_round_trip {reg : Registry} (hr : Spec.HasBuiltins reg) (user : Nat → PyVal → Except Err Pattern)
    {fs fs' : FS E} {file : String} {v : Val Flt} {p : Pattern} {argk : List (String × E)} (hp : Built p) (hv : v.WF)
    (h : saveFolded fs file v p argk = (.ok (), fs')) (ops : List (Op E)) (hops : ∀ op ∈ ops, Untouched (storedName file) op) :
    ∃ data, loadFolded reg user (ops.foldl Op.apply fs') (storedName file) = .ok (Spec.canon p v, Spec.forget p, data) ∧
      ∀ k e, argk.lookup k = some e → (∀ k' ∈ "flat_val" :: "pattern_json" :: argk.map (·.1), k ≠ k' ++ ".npy") →
        getItem data k = .ok (.extra e) := by
  obtain ⟨x, hx, hn, rfl⟩ := saveFolded_ok h
  have hx' := C04_nonfree_value hp hv hx
  have hs : (Spec.forget p).fold x (some false) none = .ok (Spec.canon p v) := by
    rw [← hx']; exact ((same_forget p hp.wf) false x v none).1.symm
  have hd := C30_exactly hr user hp
  have hnpy : ∀ k k' : String, k ++ ".npy" = k' → ".npy".toList <:+ k'.toList := by
    rintro k _ rfl
    rw [String.toList_append]; exact List.suffix_append _ _
  refine ⟨(("flat_val", Item.flat x) :: ("pattern_json", .json p.toJson) :: argk.map fun a => (a.1, .extra a.2)).map
    fun m => (m.1 ++ ".npy", m.2), ?_, fun k e hk hne => ?_⟩
  rotate_left
  · refine getItem_savez (("flat_val", .flat x) :: ("pattern_json", .json p.toJson) :: argk.map fun a => (a.1, .extra a.2)) ?_ ?_
    · have hm : (k, e) ∈ argk := by
        rw [List.lookup_eq_some_iff] at hk
        obtain ⟨l1, l2, rfl, -⟩ := hk
        simp
      obtain ⟨h1, h2⟩ := hn _ hm
      rw [List.lookup_cons, List.lookup_cons, beq_eq_false_iff_ne.mpr h1, beq_eq_false_iff_ne.mpr h2]
      simp only
      clear hne hn h h1 h2 hm
      induction argk with
      | nil => cases hk
      | cons a argk ih =>
        obtain ⟨a, e'⟩ := a
        simp only [List.map_cons, List.lookup_cons] at hk ⊢
        split at hk
        · simp_all
        · exact ih hk
    · intro m hm
      apply hne
      simp only [List.mem_cons, List.mem_map] at hm ⊢
      rcases hm with rfl | rfl | ⟨a, ha, rfl⟩
      · exact .inl rfl
      · exact .inr (.inl rfl)
      · exact .inr (.inr ⟨a, ha, rfl⟩)
  · rw [loadFolded, foldl_untouched hops, savez, if_pos rfl]
    have g1 := getItem_savez (("flat_val", .flat x) :: ("pattern_json", .json p.toJson) :: argk.map fun a => (a.1, .extra a.2))
      (k := "pattern_json") (i := .json p.toJson) (by simp [List.lookup_cons])
      (fun m _ e => absurd (hnpy _ _ e.symm) (by decide))
    have g2 := getItem_savez (("flat_val", .flat x) :: ("pattern_json", .json p.toJson) :: argk.map fun a => (a.1, .extra a.2))
      (k := "flat_val") (i := .flat x) (by simp)
      (fun m _ e => absurd (hnpy _ _ e.symm) (by decide))
    simp only [g1, g2, bind, Except.bind, hd, hs, pure, Except.pure]

/-- **C35.** The loaded pattern compares equal to the saved one (unless that has a NaN bound) and behaves the same. -/
theorem C35_pattern {p : Pattern} (hp : Built p) :
    Spec.SameBehaviour p (Spec.forget p) ∧ (Spec.NotNaNBound p → p.EqPy (Spec.forget p)) :=
  ⟨same_forget p hp.wf, fun h =>
    ((C29_equal initial_builtins (fun _ _ => .error .unmodelled) hp (C30_exactly initial_builtins _ hp)).2.2 h).1⟩

/-- **C35.** The extension is added exactly when it is missing, and only the stored file changes. -/
theorem C35_file_name (fs : FS E) (file : String) (v : Val Flt) (p : Pattern) (argk : List (String × E)) :
    (storedName file = if ".npz".toList <:+ file.toList then file else file ++ ".npz") ∧
    ".npz".toList <:+ (storedName file).toList ∧
    (∀ n, n ≠ storedName file → (saveFolded fs file v p argk).2 n = fs n) := by
  have h1 : storedName file = if ".npz".toList <:+ file.toList then file else file ++ ".npz" := by
    unfold storedName
    by_cases h : ".npz".toList <:+ file.toList
    · rw [if_pos h, if_pos (List.isSuffixOf_iff_suffix.mpr h)]
    · rw [if_neg h, if_neg (fun h' => h (List.isSuffixOf_iff_suffix.mp h'))]
  refine ⟨h1, ?_, fun n hn => apply_untouched (op := .save file v p argk) (fun e => hn e.symm)⟩
  rw [h1]
  split
  · assumption
  · rw [String.toList_append]; exact List.suffix_append _ _

/-- **C35.** `load_folded` does not add the extension: after saving under a name without it, loading that same name does not see the
saved data, only what was there before. -/
theorem C35_load_exact_name (reg : Registry) (user : Nat → PyVal → Except Err Pattern) (fs : FS E) (file : String) (v : Val Flt)
    (p : Pattern) (argk : List (String × E)) (h : ¬ ".npz".toList <:+ file.toList) :
    loadFolded reg user (saveFolded fs file v p argk).2 file = loadFolded reg user fs file := by
  obtain ⟨h1, h2, h3⟩ := C35_file_name fs file v p argk
  have : file ≠ storedName file := fun e => h (e ▸ h2)
  simp only [loadFolded, h3 file this]

/-- **C35.** When `save_folded` raises, no file has changed; it raises whenever flattening does, and on the reserved names. -/
theorem C35_failure (fs fs' : FS E) (file : String) (v : Val Flt) (p : Pattern) (argk : List (String × E)) :
    (∀ e, saveFolded fs file v p argk = (.error e, fs') → fs' = fs) ∧
    ((∃ a ∈ argk, a.1 ∈ ["flat_val", "pattern_json", "file", "folded_val", "pattern"]) →
      ∃ e, saveFolded fs file v p argk = (.error e, fs)) ∧
    (∀ e, p.flatten v (some false) none = .error e → (∀ a ∈ argk, a.1 ∉ ["file", "folded_val", "pattern"]) →
      saveFolded fs file v p argk = (.error e, fs)) := by
  refine ⟨fun e h => ?_, ?_, fun e he ha => ?_⟩
  · simp only [saveFolded] at h
    split at h
    · simp only [Prod.mk.injEq] at h; exact h.2.symm
    · split at h
      · simp only [Prod.mk.injEq] at h; exact h.2.symm
      · split at h
        · simp only [Prod.mk.injEq] at h; exact h.2.symm
        · simp only [Prod.mk.injEq, reduceCtorEq, false_and] at h
  · rintro ⟨a, ha, hm⟩
    simp only [saveFolded]
    split
    · exact ⟨_, rfl⟩
    · rename_i h1
      split
      · exact ⟨_, rfl⟩
      · split
        · exact ⟨_, rfl⟩
        · rename_i h2
          exfalso
          simp only [List.any_map, List.any_eq_true, Function.comp, List.contains_iff_mem, not_exists, not_and] at h1 h2
          have h1 := h1 a ha
          have h2 := h2 a ha
          simp only [List.mem_cons, List.not_mem_nil, or_false, not_or] at h1 h2 hm
          tauto
  · simp only [saveFolded]
    rw [if_neg]
    · simp only [he]
    · simp only [List.any_map, List.any_eq_true, Function.comp, List.contains_iff_mem, not_exists, not_and]
      exact ha

/-- **C35.** A reserved name raises `TypeError`: the names of the parameters of `save_folded` always, the two names under which it
stores its own data if the value can be flattened (otherwise the exception is that of `flatten`).  With no such name it saves
whenever `flatten` returns. -/
theorem C35_reserved (fs : FS E) (file : String) (v : Val Flt) (p : Pattern) (argk : List (String × E)) :
    ((∃ a ∈ argk, a.1 ∈ ["file", "folded_val", "pattern"]) → saveFolded fs file v p argk = (.error .typeError, fs)) ∧
    ((∃ a ∈ argk, a.1 ∈ ["flat_val", "pattern_json"]) → (∃ x, p.flatten v (some false) none = .ok x) →
      saveFolded fs file v p argk = (.error .typeError, fs)) ∧
    ((∀ a ∈ argk, a.1 ∉ ["flat_val", "pattern_json", "file", "folded_val", "pattern"]) →
      (∃ x, p.flatten v (some false) none = .ok x) → (saveFolded fs file v p argk).1 = .ok ()) := by
  have hany (l : List String) : (argk.map (·.1)).any (fun k => l.contains k) = true ↔ ∃ a ∈ argk, a.1 ∈ l := by
    simp only [List.any_map, List.any_eq_true, Function.comp, List.contains_iff_mem]
  refine ⟨fun h => ?_, fun h ⟨x, hx⟩ => ?_, fun h ⟨x, hx⟩ => ?_⟩
  · rw [saveFolded, if_pos ((hany _).mpr h)]
  · rw [saveFolded, hx]
    dsimp only
    rw [if_pos ((hany _).mpr h), ite_self]
  · rw [saveFolded, hx]
    dsimp only
    rw [if_neg, if_neg]
    · rw [hany]
      rintro ⟨a, ha, hm⟩
      have := h a ha
      simp only [List.mem_cons, List.not_mem_nil, or_false, not_or] at this hm
      tauto
    · rw [hany]
      rintro ⟨a, ha, hm⟩
      have := h a ha
      simp only [List.mem_cons, List.not_mem_nil, or_false, not_or] at this hm
      tauto

/-- Non-vacuity: the running example saved with an extra array, then another file written and one deleted. -/
example : ∃ (v : Val Flt) (fs' : FS Nat), Built exPat ∧ v.WF ∧
    saveFolded (fun _ => none) "a" v exPat [("note", 7)] = (.ok (), fs') ∧ storedName "a" = "a.npz" ∧
    (∀ op ∈ ([.save "b.npz" v exPat [], .delete "a"] : List (Op Nat)), Untouched (storedName "a") op) ∧
    (∀ k' ∈ "flat_val" :: "pattern_json" :: ([("note", 7)] : List (String × Nat)).map (·.1), "note" ≠ k' ++ ".npy") := by
  obtain ⟨v, x, y, h1, h2, h3, h4⟩ := exPat_value
  refine ⟨v, savez (fun _ => none) "a" [("flat_val", .flat x), ("pattern_json", .json exPat.toJson), ("note", .extra 7)],
    exPat_built, h1, ?_, by decide, ?_, by decide⟩
  · simp only [saveFolded, h3]
    rw [if_neg (by decide), if_neg (by decide)]
    rfl
  · intro op hop
    simp only [List.mem_cons, List.not_mem_nil, or_false] at hop
    rcases hop with rfl | rfl <;> simp only [Untouched] <;> decide

end Files

end Paragami
