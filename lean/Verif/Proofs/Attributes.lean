import Verif.Spec.Attributes
import Verif.Proofs.Built

/-!
# Shared pattern objects with attributes: what the heap looks like
-/

namespace Paragami.Attributes

/-- The objects an object refers to. -/
def Node.children : Node → List Nat
  | .leaf _ => []
  | .array _ b _ => [b]
  | .dict ms _ _ => ms.map (·.2)

/-- What one object guarantees. -/
def Node.OK : Node → Prop
  | .leaf p => p.WF ∧ p.isDict = false ∧ ∀ s b fd, p ≠ .array s b fd
  | .array s _ _ => s ≠ []
  | .dict ms _ _ => (ms.map (·.1)).Nodup

/-- What a parent asks of its children: members of dictionaries are locked, base patterns are no dictionaries. -/
def Node.Wants (n m : Node) : Prop := if n.isDict then m.lock = m else m.isDict = false

/-- What holds of the heap after any good program. -/
structure Inv (h : Heap) : Prop where
  rank : ∃ rank : Nat → Nat, ∀ (i : Nat) (n : Node), h[i]? = some n → ∀ c ∈ n.children, c < h.length ∧ rank c < rank i
  child : ∀ (i : Nat) (n : Node), h[i]? = some n → ∀ c ∈ n.children, ∀ m, h[c]? = some m → n.Wants m
  node : ∀ (i : Nat) (n : Node), h[i]? = some n → n.OK

theorem inv_nil : Inv [] := ⟨⟨fun _ => 0, by simp⟩, by simp, by simp⟩

theorem lock_lock (n : Node) : n.lock.lock = n.lock := by cases n <;> rfl

theorem get_append {h : Heap} {n m : Node} {i : Nat} : (h ++ [n])[i]? = some m ↔ h[i]? = some m ∨ i = h.length ∧ n = m := by
  rcases lt_trichotomy i h.length with hi | hi | hi
  · rw [List.getElem?_append_left hi]; simp [hi.ne]
  · subst hi; simp
  · rw [List.getElem?_eq_none (by simp; omega), List.getElem?_eq_none (by omega)]; simp; omega

theorem get_set {h : Heap} {n m : Node} {i j : Nat} (hi : i < h.length) :
    (h.set i n)[j]? = some m ↔ (j = i ∧ n = m) ∨ (j ≠ i ∧ h[j]? = some m) := by
  rw [List.getElem?_set]
  by_cases e : i = j
  · subst e; simp [hi]
  · simp [e, Ne.symm e]

theorem inv_append {h : Heap} (hh : Inv h) {n : Node} (hok : n.OK) (hc : ∀ c ∈ n.children, ∃ m, h[c]? = some m ∧ n.Wants m) : Inv (h ++ [n]) := by
  obtain ⟨rank, hr⟩ := hh.rank
  have hb : ∀ c ∈ n.children, c < h.length := fun c hcc => by
    obtain ⟨m, hm, _⟩ := hc c hcc
    exact (List.getElem?_eq_some_iff.1 hm).1
  refine ⟨⟨fun i => if i = h.length then (n.children.map fun c => rank c + 1).sum else rank i, ?_⟩, ?_, ?_⟩
  · intro i m hi c hcc
    rcases get_append.1 hi with hi | ⟨rfl, rfl⟩
    · have hlt := (List.getElem?_eq_some_iff.1 hi).1
      obtain ⟨h1, h2⟩ := hr i m hi c hcc
      refine ⟨by simp; omega, ?_⟩
      simp only
      rw [if_neg h1.ne, if_neg hlt.ne]
      exact h2
    · have h1 := hb c hcc
      refine ⟨by simp; omega, ?_⟩
      simp only
      rw [if_neg h1.ne]
      simp only [if_true]
      have : rank c + 1 ≤ (n.children.map fun c => rank c + 1).sum := List.single_le_sum (by simp) _ (List.mem_map_of_mem hcc)
      omega
  · intro i m hi c hcc m' hm'
    rcases get_append.1 hi with hi | ⟨rfl, rfl⟩
    · have h1 := (hr i m hi c hcc).1
      rw [List.getElem?_append_left h1] at hm'
      exact hh.child i m hi c hcc m' hm'
    · rw [List.getElem?_append_left (hb c hcc)] at hm'
      obtain ⟨m'', h2, h3⟩ := hc c hcc
      rw [hm'] at h2
      cases h2
      exact h3
  · intro i m hi
    rcases get_append.1 hi with hi | ⟨rfl, rfl⟩
    · exact hh.node i m hi
    · exact hok

theorem inv_update {h : Heap} (hh : Inv h) {i : Nat} {n n' : Node} (hi : h[i]? = some n) (hd : n'.isDict = n.isDict)
    (hl : n.lock = n → n'.lock = n') (hc : ∀ c ∈ n'.children, c ∈ n.children) (hok : n'.OK) : Inv (h.set i n') := by
  have hlt := (List.getElem?_eq_some_iff.1 hi).1
  obtain ⟨rank, hr⟩ := hh.rank
  have wants : ∀ m : Node, m.Wants n → m.Wants n' := fun m => by
    unfold Node.Wants
    split_ifs
    · exact hl
    · rw [hd]; exact id
  refine ⟨⟨rank, ?_⟩, ?_, ?_⟩
  · intro j m hj c hcc
    rw [List.length_set]
    rcases (get_set hlt).1 hj with ⟨rfl, rfl⟩ | ⟨_, hj⟩
    · exact hr j n hi c (hc c hcc)
    · exact hr j m hj c hcc
  · intro j m hj c hcc m' hm'
    have hold : ∃ m₀, h[j]? = some m₀ ∧ c ∈ m₀.children ∧ ∀ x, m₀.Wants x → m.Wants x := by
      rcases (get_set hlt).1 hj with ⟨rfl, rfl⟩ | ⟨_, hj⟩
      · exact ⟨n, hi, hc c hcc, fun x => by unfold Node.Wants; rw [hd]; exact id⟩
      · exact ⟨m, hj, hcc, fun _ => id⟩
    obtain ⟨m₀, h1, h2, h3⟩ := hold
    rcases (get_set hlt).1 hm' with ⟨rfl, rfl⟩ | ⟨_, hm'⟩
    · exact h3 _ (wants _ (hh.child j m₀ h1 _ h2 n hi))
    · exact h3 _ (hh.child j m₀ h1 c h2 m' hm')
  · intro j m hj
    rcases (get_set hlt).1 hj with ⟨rfl, rfl⟩ | ⟨_, hj⟩
    · exact hok
    · exact hh.node j m hj

theorem mem_setKey {ms : List (String × Nat)} {k : String} {r : Nat} {m : String × Nat} (h : m ∈ setKey ms k r) : m = (k, r) ∨ m ∈ ms := by
  induction ms with
  | nil => simpa [setKey] using h
  | cons a ms ih =>
    obtain ⟨k', r'⟩ := a
    rw [setKey] at h
    split_ifs at h with hk
    · subst hk
      rcases List.mem_cons.1 h with rfl | h
      · exact .inl rfl
      · exact .inr (List.mem_cons_of_mem _ h)
    · rcases List.mem_cons.1 h with rfl | h
      · exact .inr List.mem_cons_self
      · exact (ih h).imp id (List.mem_cons_of_mem _)

theorem keys_setKey (ms : List (String × Nat)) (k : String) (r : Nat) :
    (setKey ms k r).map (·.1) = if k ∈ ms.map (·.1) then ms.map (·.1) else ms.map (·.1) ++ [k] := by
  induction ms with
  | nil => simp [setKey]
  | cons a ms ih =>
    obtain ⟨k', r'⟩ := a
    rw [setKey]
    split_ifs with hk hm hm
    · simp
    · simp [hk] at hm
    · have : k ∈ ms.map (·.1) := by
        rcases List.mem_cons.1 hm with e | hm
        · exact absurd e.symm hk
        · exact hm
      simp only [List.map_cons, ih, if_pos this]
    · have : k ∉ ms.map (·.1) := fun h => hm (List.mem_cons_of_mem _ h)
      simp only [List.map_cons, ih, if_neg this, List.cons_append]

theorem nodup_setKey {ms : List (String × Nat)} (h : (ms.map (·.1)).Nodup) (k : String) (r : Nat) : ((setKey ms k r).map (·.1)).Nodup := by
  rw [keys_setKey]
  split_ifs with hk
  · exact h
  · rw [List.nodup_append]
    exact ⟨h, by simp, by rintro a ha b hb rfl; simp at hb; exact hk (hb ▸ ha)⟩

theorem eraseKey_sublist (ms : List (String × Nat)) (k : String) : (eraseKey ms k).Sublist ms := by
  induction ms with
  | nil => exact .slnil
  | cons a ms ih =>
    obtain ⟨k', r'⟩ := a
    rw [eraseKey]
    split_ifs
    · exact List.sublist_cons_self _ _
    · exact ih.cons_cons _

/-- Storing a locked object in a dictionary that is not locked, and hence no part of anything. -/
theorem inv_store {h : Heap} (hh : Inv h) {d r : Nat} {ms : List (String × Nat)} {fd : Option Bool} {n : Node} (hd : h[d]? = some (.dict ms false fd))
    (hr : h[r]? = some n) (hl : n.lock = n) (hne : r ≠ d) (k : String) : Inv (h.set d (.dict (setKey ms k r) false fd)) := by
  have hlt := (List.getElem?_eq_some_iff.1 hd).1
  have hrlt := (List.getElem?_eq_some_iff.1 hr).1
  obtain ⟨rank, hrank⟩ := hh.rank
  have notChild : ∀ (j : Nat) (m : Node), h[j]? = some m → ∀ c ∈ m.children, c ≠ d := by
    rintro j m hj c hc rfl
    have := hh.child j m hj _ hc _ hd
    unfold Node.Wants at this
    split_ifs at this
    · cases this
    · cases this
  have kids : ∀ c ∈ (Node.dict (setKey ms k r) false fd).children, c = r ∨ c ∈ (Node.dict ms false fd).children := by
    intro c hc
    obtain ⟨m, hm, rfl⟩ := List.mem_map.1 hc
    rcases mem_setKey hm with rfl | hm
    · exact .inl rfl
    · exact .inr (List.mem_map_of_mem hm)
  refine ⟨⟨fun i => if i = d then max (rank d) (rank r + 1) else rank i, ?_⟩, ?_, ?_⟩
  · intro j m hj c hc
    rw [List.length_set]
    rcases (get_set hlt).1 hj with ⟨rfl, rfl⟩ | ⟨hjd, hj⟩
    · rcases kids c hc with rfl | hc
      · refine ⟨hrlt, ?_⟩
        simp only
        rw [if_neg hne, if_pos trivial]
        omega
      · obtain ⟨h1, h2⟩ := hrank j _ hd c hc
        refine ⟨h1, ?_⟩
        simp only
        rw [if_neg (notChild _ _ hd c hc), if_pos trivial]
        omega
    · obtain ⟨h1, h2⟩ := hrank j m hj c hc
      refine ⟨h1, ?_⟩
      simp only
      rw [if_neg (notChild _ _ hj c hc), if_neg hjd]
      exact h2
  · intro j m hj c hc m' hm'
    rcases (get_set hlt).1 hj with ⟨rfl, rfl⟩ | ⟨hjd, hj⟩
    · rcases kids c hc with rfl | hc
      · rcases (get_set hlt).1 hm' with ⟨e, _⟩ | ⟨_, hm'⟩
        · exact absurd e hne
        · rw [hr] at hm'; cases hm'
          exact hl
      · rcases (get_set hlt).1 hm' with ⟨e, _⟩ | ⟨_, hm'⟩
        · exact absurd e (notChild _ _ hd c hc)
        · exact hh.child j _ hd c hc m' hm'
    · rcases (get_set hlt).1 hm' with ⟨e, _⟩ | ⟨_, hm'⟩
      · exact absurd e (notChild _ _ hj c hc)
      · exact hh.child j m hj c hc m' hm'
  · intro j m hj
    rcases (get_set hlt).1 hj with ⟨rfl, rfl⟩ | ⟨_, hj⟩
    · exact nodup_setKey (hh.node j _ hd) k r
    · exact hh.node j m hj

theorem lock_children (n : Node) : n.lock.children = n.children := by cases n <;> rfl
theorem lock_isDict (n : Node) : n.lock.isDict = n.isDict := by cases n <;> rfl
theorem lock_ok {n : Node} (h : n.OK) : n.lock.OK := by cases n <;> exact h

theorem setValidate_wf {p : Pattern} (b : Bool) (h : p.WF) : (setValidate b p).WF := by cases p <;> exact h
theorem setFree_wf {p : Pattern} (fd : Option Bool) (h : p.WF) : (setFree fd p).WF := by cases p <;> exact h
theorem setValidate_isDict (p : Pattern) (b : Bool) : (setValidate b p).isDict = p.isDict := by cases p <;> rfl
theorem setFree_isDict (p : Pattern) (fd : Option Bool) : (setFree fd p).isDict = p.isDict := by cases p <;> rfl

theorem inv_lock {h : Heap} (hh : Inv h) {i : Nat} {n : Node} (hi : h[i]? = some n) : Inv (h.set i n.lock) :=
  inv_update hh hi (lock_isDict n) (fun _ => lock_lock n) (by rw [lock_children]; exact fun _ => id) (lock_ok (hh.node i n hi))

theorem step_inv {h : Heap} (hh : Inv h) {s : Stmt} (hs : Good s) : Inv (step h s).2 := by
  cases s with
  | leaf p => exact inv_append hh ⟨hs.1.wf, hs.2⟩ (by simp [Node.children])
  | array s b fd =>
    rw [step]
    split
    · exact hh
    · next n hn =>
      split_ifs with h1 h2
      · exact hh
      · exact hh
      · refine inv_append hh h2 fun c hc => ?_
        simp only [Node.children, List.mem_singleton] at hc
        subst hc
        exact ⟨n, hn, by simpa [Node.Wants, Node.isDict] using h1⟩
  | dict fd => exact inv_append hh (by simp [Node.OK]) (by simp [Node.children])
  | set d k r =>
    rw [step]
    split
    · next ms locked fd n hd hr =>
      split_ifs with hl
      · exact hh
      · simp only [Bool.not_eq_true] at hl
        subst hl
        have hne : r ≠ d := hs
        have h1 := inv_lock hh hr
        have hd' : (h.set r n.lock)[d]? = some (.dict ms false fd) := by rw [List.getElem?_set_ne hne]; exact hd
        have hr' : (h.set r n.lock)[r]? = some n.lock := by rw [List.getElem?_set_self (List.getElem?_eq_some_iff.1 hr).1]
        have := inv_store h1 hd' hr' (lock_lock n) hne k
        simpa [hne] using this
    · exact hh
  | del d k =>
    rw [step]
    split
    · next ms locked fd hd =>
      split_ifs with hl hk
      · exact hh
      · simp only [Bool.not_eq_true] at hl
        subst hl
        refine inv_update hh hd rfl (fun h => by cases h) (fun c hc => ?_) ?_
        · exact ((eraseKey_sublist ms k).map _).subset hc
        · exact ((eraseKey_sublist ms k).map _).nodup (hh.node d _ hd)
      · exact hh
    · exact hh
  | lock d =>
    rw [step]
    split
    · next n hn => exact inv_lock hh hn
    · exact hh
  | validate i b =>
    rw [step]
    split
    · next n hn =>
      have hok := hh.node i n hn
      refine inv_update hh hn ?_ ?_ ?_ ?_
      · cases n <;> rfl
      · cases n <;> first | exact id | exact fun _ => rfl
      · cases n <;> exact fun _ => id
      · cases n with
        | leaf p => exact ⟨setValidate_wf b hok.1, (setValidate_isDict p b).trans hok.2.1, fun s q fd' => by
          have := hok.2.2
          cases p <;> simp_all [Attributes.setValidate]⟩
        | array => exact hok
        | dict => exact hok
    · exact hh
  | free i fd =>
    rw [step]
    split
    · next n hn =>
      have hok := hh.node i n hn
      refine inv_update hh hn ?_ ?_ ?_ ?_
      · cases n <;> rfl
      · cases n with
        | leaf => exact fun _ => rfl
        | array => exact fun _ => rfl
        | dict ms l fd' =>
          intro h
          simp only [Node.lock, Node.dict.injEq] at h
          simp [Node.setFree, Node.lock, ← h.2.1]
      · cases n <;> exact fun _ => id
      · cases n with
        | leaf p => exact ⟨setFree_wf fd hok.1, (setFree_isDict p fd).trans hok.2.1, fun s q fd' => by
          have := hok.2.2
          cases p <;> simp_all [Attributes.setFree]⟩
        | array => exact hok
        | dict => exact hok
    · exact hh

theorem run_inv {ss : List Stmt} (hs : ∀ s ∈ ss, Good s) : ∀ {h : Heap}, Inv h → Inv (run h ss) := by
  induction ss with
  | nil => exact fun h => h
  | cons s ss ih =>
    intro h hh
    exact ih (fun s' hs' => hs s' (List.mem_cons_of_mem _ hs')) (step_inv hh (hs s List.mem_cons_self))

mutual
theorem stands_unique {h : Heap} : ∀ (t : Tree) {i : Nat} {t' : Tree}, Stands h i t → Stands h i t' → t = t'
  | .leaf _ _, _, _, .leaf h1, h' => by
    cases h' with
    | leaf h2 => rw [h1] at h2; cases h2; rfl
    | array h2 => rw [h1] at h2; cases h2
    | dict h2 => rw [h1] at h2; cases h2
  | .array _ _ t _, _, _, .array h1 ht, h' => by
    cases h' with
    | leaf h2 => rw [h1] at h2; cases h2
    | array h2 ht' => rw [h1] at h2; cases h2; rw [stands_unique t ht ht']
    | dict h2 => rw [h1] at h2; cases h2
  | .dict _ es _ _, _, _, .dict h1 hs, h' => by
    cases h' with
    | leaf h2 => rw [h1] at h2; cases h2
    | array h2 => rw [h1] at h2; cases h2
    | dict h2 hs' => rw [h1] at h2; cases h2; rw [standsEs_unique es hs hs']
theorem standsEs_unique {h : Heap} : ∀ (es : Branches) {ms : List (String × Nat)} {es' : Branches}, StandsEs h ms es → StandsEs h ms es' → es = es'
  | .nil, _, _, .nil, h' => by cases h'; rfl
  | .cons _ t es, _, _, .cons ht hs, h' => by
    cases h' with
    | cons ht' hs' => rw [stands_unique t ht ht', standsEs_unique es hs hs']
end

theorem stands_exists {h : Heap} (hh : Inv h) : ∀ i < h.length, ∃ t, Stands h i t := by
  obtain ⟨rank, hr⟩ := hh.rank
  have key : ∀ N i, rank i < N → i < h.length → ∃ t, Stands h i t := by
    intro N
    induction N with
    | zero => intro i hi; omega
    | succ N ih =>
      intro i hi hlt
      have hg := List.getElem?_eq_getElem hlt
      cases hn : h[i] with
      | leaf p => rw [hn] at hg; exact ⟨_, .leaf hg⟩
      | array s b fd =>
        rw [hn] at hg
        obtain ⟨h1, h2⟩ := hr i _ hg b (by simp [Node.children])
        obtain ⟨t, ht⟩ := ih b (by omega) h1
        exact ⟨_, .array hg ht⟩
      | dict ms l fd =>
        rw [hn] at hg
        have : ∀ ms' : List (String × Nat), (∀ m ∈ ms', m ∈ ms) → ∃ es, StandsEs h ms' es := by
          intro ms'
          induction ms' with
          | nil => exact fun _ => ⟨_, .nil⟩
          | cons m ms' ih' =>
            intro hm
            obtain ⟨h1, h2⟩ := hr i _ hg m.2 (List.mem_map_of_mem (hm m List.mem_cons_self))
            obtain ⟨t, ht⟩ := ih m.2 (by omega) h1
            obtain ⟨es, hes⟩ := ih' fun m' hm' => hm m' (List.mem_cons_of_mem _ hm')
            exact ⟨_, .cons ht hes⟩
        obtain ⟨es, hes⟩ := this ms fun _ => id
        exact ⟨_, .dict hg hes⟩
  exact fun i hi => key _ i (Nat.lt_succ_self _) hi

theorem keys_entries {h : Heap} : ∀ (es : Branches) {ms : List (String × Nat)}, StandsEs h ms es → es.entries.keys = ms.map (·.1)
  | .nil, _, .nil => rfl
  | .cons k t es, _, .cons _ hs => by
    have := keys_entries es hs
    simp only [Entries.keys] at this
    simp [Branches.entries, Entries.keys, Entries.toList, this]

theorem stands_isDict {h : Heap} (hh : Inv h) {i : Nat} {t : Tree} {n : Node} (ht : Stands h i t) (hn : h[i]? = some n) : t.pattern.isDict = n.isDict := by
  cases ht with
  | leaf h1 => rw [h1] at hn; cases hn; exact (hh.node i _ h1).2.1
  | array h1 => rw [h1] at hn; cases hn; rfl
  | dict h1 => rw [h1] at hn; cases hn; rfl

theorem stands_lock {h : Heap} {i : Nat} {t : Tree} {n : Node} (hh : Inv h) (ht : Stands h i t) (hn : h[i]? = some n) (hl : n.lock = n) :
    t.pattern.lock = t.pattern := by
  cases ht with
  | leaf h1 =>
    rw [h1] at hn; cases hn
    rename_i p
    have := (hh.node i _ h1).2.1
    cases p <;> first | rfl | cases this
  | array h1 => rfl
  | dict h1 =>
    rw [h1] at hn; cases hn
    simp only [Node.lock, Node.dict.injEq] at hl
    simp [Tree.pattern, Pattern.lock, ← hl.2.1]

mutual
theorem stands_wf {h : Heap} (hh : Inv h) : ∀ (t : Tree) {i : Nat}, Stands h i t → t.pattern.WF
  | .leaf _ _, i, .leaf h1 => (hh.node i _ h1).1
  | .array _ s t _, i, .array h1 ht => by
    obtain ⟨rank, hr⟩ := hh.rank
    obtain ⟨h2, _⟩ := hr i _ h1 _ (List.mem_singleton_self _)
    have hg := List.getElem?_eq_getElem h2
    have hw := hh.child i _ h1 _ (List.mem_singleton_self _) _ hg
    exact ⟨hh.node i _ h1, (stands_isDict hh ht hg).trans (by simpa [Node.Wants, Node.isDict] using hw), stands_wf hh t ht⟩
  | .dict _ es _ _, i, .dict h1 hs =>
    ⟨by rw [keys_entries es hs]; exact hh.node i _ h1, standsEs_wf hh es hs fun m hm n hn => by
      simpa [Node.Wants, Node.isDict] using hh.child i _ h1 m.2 (List.mem_map_of_mem hm) n hn⟩
theorem standsEs_wf {h : Heap} (hh : Inv h) : ∀ (es : Branches) {ms : List (String × Nat)}, StandsEs h ms es →
    (∀ m ∈ ms, ∀ n, h[m.2]? = some n → n.lock = n) → Pattern.WFEs es.entries
  | .nil, _, .nil, _ => trivial
  | .cons k t es, (_, r) :: ms, .cons ht hs, hl => by
    have hn : ∃ n, h[r]? = some n := by cases ht <;> exact ⟨_, ‹_›⟩
    obtain ⟨n, hn⟩ := hn
    exact ⟨stands_wf hh t ht, stands_lock hh ht hn (hl _ List.mem_cons_self n hn),
      standsEs_wf hh es hs fun m hm => hl m (List.mem_cons_of_mem _ hm)⟩
end

theorem set_other {h : Heap} {i j : Nat} (n : Node) (hij : j ≠ i) : (h.set i n)[j]? = h[j]? := List.getElem?_set_ne (Ne.symm hij)
theorem set_same {h : Heap} {i : Nat} {n : Node} (n' : Node) (hi : h[i]? = some n) : (h.set i n')[i]? = some n' :=
  List.getElem?_set_self (List.getElem?_eq_some_iff.1 hi).1

mutual
theorem stands_validate {h : Heap} {i : Nat} {n : Node} (hi : h[i]? = some n) (b : Bool) : ∀ (t : Tree) {j : Nat}, Stands h j t →
    Stands (h.set i (n.setValidate b)) j (t.validate i b)
  | .leaf _ p, j, .leaf h1 => by
    rw [Tree.validate]
    by_cases e : j = i
    · subst e
      rw [h1] at hi; cases hi
      rw [if_pos rfl]
      exact .leaf (set_same _ h1)
    · rw [if_neg e]
      exact .leaf ((set_other _ e).trans h1)
  | .array _ s t fd, j, .array h1 ht => by
    rw [Tree.validate]
    refine .array ?_ (stands_validate hi b t ht)
    by_cases e : j = i
    · subst e
      rw [h1] at hi; cases hi
      exact set_same _ h1
    · exact (set_other _ e).trans h1
  | .dict _ es l fd, j, .dict h1 hs => by
    rw [Tree.validate]
    refine .dict ?_ (standsEs_validate hi b es hs)
    by_cases e : j = i
    · subst e
      rw [h1] at hi; cases hi
      exact set_same _ h1
    · exact (set_other _ e).trans h1
theorem standsEs_validate {h : Heap} {i : Nat} {n : Node} (hi : h[i]? = some n) (b : Bool) : ∀ (es : Branches) {ms : List (String × Nat)},
    StandsEs h ms es → StandsEs (h.set i (n.setValidate b)) ms (es.validate i b)
  | .nil, _, .nil => by rw [Branches.validate]; exact .nil
  | .cons _ t es, _, .cons ht hs => by rw [Branches.validate]; exact .cons (stands_validate hi b t ht) (standsEs_validate hi b es hs)
end

mutual
theorem stands_free {h : Heap} {i : Nat} {n : Node} (hi : h[i]? = some n) (fd : Option Bool) : ∀ (t : Tree) {j : Nat}, Stands h j t →
    Stands (h.set i (n.setFree fd)) j (t.free i fd)
  | .leaf _ p, j, .leaf h1 => by
    rw [Tree.free]
    by_cases e : j = i
    · subst e
      rw [h1] at hi; cases hi
      rw [if_pos rfl]
      exact .leaf (set_same _ h1)
    · rw [if_neg e]
      exact .leaf ((set_other _ e).trans h1)
  | .array _ s t fd', j, .array h1 ht => by
    rw [Tree.free]
    by_cases e : j = i
    · subst e
      rw [if_pos rfl]
      have h2 := hi
      rw [h1] at h2; cases h2
      exact .array (set_same _ h1) (stands_free hi fd t ht)
    · rw [if_neg e]
      exact .array ((set_other _ e).trans h1) (stands_free hi fd t ht)
  | .dict _ es l fd', j, .dict h1 hs => by
    rw [Tree.free]
    by_cases e : j = i
    · subst e
      rw [if_pos rfl]
      have h2 := hi
      rw [h1] at h2; cases h2
      exact .dict (set_same _ h1) (standsEs_free hi fd es hs)
    · rw [if_neg e]
      exact .dict ((set_other _ e).trans h1) (standsEs_free hi fd es hs)
theorem standsEs_free {h : Heap} {i : Nat} {n : Node} (hi : h[i]? = some n) (fd : Option Bool) : ∀ (es : Branches) {ms : List (String × Nat)},
    StandsEs h ms es → StandsEs (h.set i (n.setFree fd)) ms (es.free i fd)
  | .nil, _, .nil => by rw [Branches.free]; exact .nil
  | .cons _ t es, _, .cons ht hs => by rw [Branches.free]; exact .cons (stands_free hi fd t ht) (standsEs_free hi fd es hs)
end

end Paragami.Attributes
