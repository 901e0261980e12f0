import Verif.Props.Leaves

/-! # Reordering blocks: proofs -/

namespace Paragami
open Pattern NDArray Spec

namespace Reorder

open Classical

variable {L : Type} (len : L → Nat)

/-- Where the block of `l` starts if the blocks of `ls` follow one another. -/
noncomputable def start : List L → L → Nat
  | [], _ => 0
  | a :: r, l => if a = l then 0 else len a + start r l

/-- The positions of the block of `l`. -/
noncomputable def place (ls : List L) (l : L) : List Nat := (List.range (len l)).map (start len ls l + ·)

theorem place_cons {a : L} {r : List L} {l : L} (h : a ≠ l) : place len (a :: r) l = (place len r l).map (len a + ·) := by
  simp [place, start, h, List.map_map, Function.comp_def, Nat.add_assoc]

theorem flatMap_place : ∀ {ls : List L}, ls.Nodup → ls.flatMap (place len ls) = List.range (ls.map len).sum
  | [], _ => rfl
  | a :: r, h => by
    have h1 : r.flatMap (place len (a :: r)) = r.flatMap fun l => (place len r l).map (len a + ·) :=
      List.flatMap_congr fun l hl => place_cons len (fun e => (List.nodup_cons.1 h).1 (e ▸ hl))
    have h2 : place len (a :: r) a = List.range (len a) := by simp [place, start]
    rw [List.flatMap_cons, h1, h2, ← List.map_flatMap, flatMap_place (List.nodup_cons.1 h).2, List.map_cons, List.sum_cons, List.range_add]

theorem read_place {α : Type} {d : α} {g : L → List α} : ∀ {ls : List L} {l : L}, (∀ m ∈ ls, (g m).length = len m) → l ∈ ls →
    (place len ls l).map (fun i => (ls.flatMap g).getD i d) = g l
  | [], _, _, h => absurd h (by simp)
  | a :: r, l, hg, h => by
    by_cases e : a = l
    · subst e
      have hl := hg a (by simp)
      apply List.ext_getElem
      · simp [place, hl]
      · intro i h1 h2
        simp [place, start, List.getD_eq_getElem?_getD, List.getElem?_append_left h2, List.getElem?_eq_getElem h2]
    · have hr : l ∈ r := by simpa [Ne.symm e] using h
      rw [place_cons len e, List.map_map, ← read_place (fun m hm => hg m (List.mem_cons_of_mem _ hm)) hr (d := d)]
      refine List.map_congr_left fun i _ => ?_
      have hl := hg a (by simp)
      simp [List.getD_eq_getElem?_getD, List.flatMap_cons, ← hl, List.getElem?_append_right]

/-- The positions in `ls`, in the order of `ms`. -/
noncomputable def index (ls ms : List L) : List Nat := ms.flatMap (place len ls)

theorem index_perm {ls ms : List L} (h : ls.Perm ms) (hn : ls.Nodup) : (index len ls ms).Perm (List.range (ls.map len).sum) := by
  rw [← flatMap_place len hn]
  exact (h.flatMap_right _).symm

theorem read_index {α : Type} {d : α} {g : L → List α} {ls ms : List L} (h : ls.Perm ms) (hg : ∀ m ∈ ls, (g m).length = len m) :
    (index len ls ms).map (fun i => (ls.flatMap g).getD i d) = ms.flatMap g := by
  rw [index, List.map_flatMap]
  exact List.flatMap_congr fun l hl => read_place len hg (h.mem_iff.2 hl)

theorem choose_blocks {B : Type} {R : L → B → Prop} : ∀ {ls : List L} {parts : List B}, ls.Nodup → List.Forall₂ R ls parts →
    B → ∃ g : L → B, parts = ls.map g ∧ ∀ l ∈ ls, R l (g l)
  | [], _, _, h, b₀ => by
    cases h
    exact ⟨fun _ => b₀, rfl, by simp⟩
  | a :: r, _, hn, h, b₀ => by
    cases h with
    | cons h1 h2 =>
      obtain ⟨g, e, hg⟩ := choose_blocks (List.nodup_cons.1 hn).2 h2 b₀
      rename_i b bs
      have hne : ∀ l ∈ r, l ≠ a := fun l hl e => (List.nodup_cons.1 hn).1 (e ▸ hl)
      refine ⟨Function.update g a b, ?_, ?_⟩
      · rw [List.map_cons, Function.update_self, e]
        congr 1
        exact List.map_congr_left fun l hl => (Function.update_of_ne (hne l hl) b g).symm
      · intro l hl
        rcases List.mem_cons.1 hl with rfl | hl
        · rw [Function.update_self]; exact h1
        · rw [Function.update_of_ne (hne l hl)]; exact hg l hl

theorem forall₂_blocks {B : Type} {R : L → B → Prop} {g : L → B} {ls : List L} (h : ∀ l ∈ ls, R l (g l)) : List.Forall₂ R ls (ls.map g) := by
  rw [List.forall₂_map_right_iff, List.forall₂_same]
  exact h

/-- Every position belongs to a block; its index is the position of the same place of the block. -/
theorem index_get {ls ms : List L} (hm : ms.Nodup) {a : Nat} (ha : a < (ms.map len).sum) :
    ∃ l ∈ ms, ∃ i < len l, a = start len ms l + i ∧ (index len ls ms)[a]? = some (start len ls l + i) := by
  have h1 : a ∈ ms.flatMap (place len ms) := by rw [flatMap_place len hm]; simpa using ha
  obtain ⟨l, hl, h2⟩ := List.mem_flatMap.1 h1
  obtain ⟨i, hi, rfl⟩ := List.mem_map.1 h2
  have hi' : i < len l := by simpa using hi
  refine ⟨l, hl, i, hi', rfl, ?_⟩
  have h3 := read_place len (g := fun l => (place len ls l).map some) (d := none) (fun m _ => by simp [place]) hl
  have h4 := congrArg (fun t => t[i]?) h3
  simp only [List.getElem?_map, place, List.getElem?_range hi', Option.map_some] at h4
  rw [← List.map_flatMap, List.getD_eq_getElem?_getD, List.getElem?_map] at h4
  rw [index]
  cases h5 : (ms.flatMap fun l => place len ls l)[start len ms l + i]? with
  | none =>
    have h6 : (List.flatMap (fun l => List.map (fun x => start len ls l + x) (List.range (len l))) ms)[start len ms l + i]? = none := h5
    rw [h6] at h4; cases h4
  | some b =>
    have h6 : (List.flatMap (fun l => List.map (fun x => start len ls l + x) (List.range (len l))) ms)[start len ms l + i]? = some b := h5
    rw [h6] at h4
    simp at h4
    rw [h4]

theorem start_take : ∀ {ls : List L} {l : L}, l ∈ ls → ∃ a, ls[a]? = some l ∧ start len ls l = ((ls.take a).map len).sum
  | [], _, h => absurd h (by simp)
  | b :: r, l, h => by
    by_cases e : b = l
    · exact ⟨0, by simp [e], by simp [start, e]⟩
    · obtain ⟨a, h1, h2⟩ := start_take (ls := r) (l := l) (by simpa [Ne.symm e] using h)
      exact ⟨a + 1, by simpa using h1, by simp [start, e, h2]⟩

end Reorder
end Paragami
