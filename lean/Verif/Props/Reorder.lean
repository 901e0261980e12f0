import Verif.Proofs.Reorder

/-! # C131: the order of the keys -/

namespace Paragami
open Pattern NDArray Spec Reorder

theorem leaves_nodup (p : Pattern) : p.WF → (nameLeaves p).Nodup := by
  induction p using Pattern.ind (Q := fun es => es.keys.Nodup → WFEs es → (nameLeavesEs es).Nodup) with
  | hnum => simp [nameLeaves]
  | hsim => simp [nameLeaves]
  | hpsd => simp [nameLeaves]
  | harr => simp [nameLeaves]
  | hdict es l fd ih => intro h; exact ih h.1 h.2
  | hnil => simp [nameLeavesEs]
  | hcons k p r ihp ihr hk hw =>
    have hk' : k ∉ r.keys ∧ r.keys.Nodup := by simpa [Entries.keys, Entries.toList] using hk
    rw [nameLeavesEs, List.nodup_append]
    refine ⟨(ihp hw.1).map ?_, ihr hk'.2 hw.2.2, ?_⟩
    · rintro ⟨a, b⟩ ⟨c, d⟩ h
      simpa using h
    · intro l hl m hm e
      subst e
      obtain ⟨l', _, rfl⟩ := List.mem_map.mp hl
      obtain ⟨k', ks, h1, h2⟩ := leaf_keys r _ hm
      have : k = k' := by simpa using (List.cons.inj h1).1
      exact hk'.1 (this ▸ h2)

theorem leaves_wf (p : Pattern) : p.WF → ∀ l ∈ nameLeaves p, l.2.WF := by
  induction p using Pattern.ind (Q := fun es => WFEs es → ∀ l ∈ nameLeavesEs es, l.2.WF) with
  | hnum => intro h l hl; simp only [nameLeaves, List.mem_singleton] at hl; subst hl; exact h
  | hsim => intro h l hl; simp only [nameLeaves, List.mem_singleton] at hl; subst hl; exact h
  | hpsd => intro h l hl; simp only [nameLeaves, List.mem_singleton] at hl; subst hl; exact h
  | harr => intro h l hl; simp only [nameLeaves, List.mem_singleton] at hl; subst hl; exact h
  | hdict es l fd ih => intro h; exact ih h.2
  | hnil hw l hl => simp [nameLeavesEs] at hl
  | hcons k p r ihp ihr hw l hl =>
    rw [nameLeavesEs, List.mem_append] at hl
    rcases hl with hl | hl
    · obtain ⟨l', h1, rfl⟩ := List.mem_map.mp hl
      exact ihp hw.1 l' h1
    · exact ihr hw.2.2 l hl

theorem pick_wf : ∀ (ks : List String) {v w : Val Flt}, v.WF → pick v ks = some w → w.WF
  | [], v, w, hv, h => by simp [pick] at h; exact h ▸ hv
  | k :: ks, .arr a, w, hv, h => by simp [pick] at h
  | k :: ks, .dict vs, w, hv, h => by
    rw [pick] at h
    cases hl : vs.lookup k with
    | none => rw [hl] at h; cases h
    | some u => rw [hl] at h; exact pick_wf ks (WFEs_lookup hv hl) h

theorem flatten_len {p : Pattern} (hw : p.WF) {v : Val Flt} (hv : v.WF) {free : Bool} {vv x} (h : p.flatten v (some free) vv = .ok x) :
    x.data.length = p.flatLen free := by
  cases free with
  | true => rw [flatten_true] at h; exact (flattenFree_ok_len p hw v vv x hv h).2.2
  | false =>
    rw [flatten_false] at h
    obtain ⟨h1, h2⟩ := flattenNF_ok_imp p hw v vv x hv h
    rw [flattenNF_eq p hw v vv hv h2 h1] at h
    cases h
    exact length_flat p hw v vv hv h1

/-- The entries of a vector in another order, `x[idx]`. -/
noncomputable def gather (idx : List Nat) (x : List Flt) : List Flt := idx.map fun i => x.getD i .nan

/-- The positions in the vectors of `p` of the entries of the vectors of `q`. -/
noncomputable def order (p q : Pattern) (free : Bool) : List Nat :=
  index (fun l : List String × Pattern => l.2.flatLen free) (nameLeaves p) (nameLeaves q)

section

variable {p q : Pattern} (hp : Built p) (hq : Built q) (hP : Populated p) (hQ : Populated q) (h : (nameLeaves p).Perm (nameLeaves q))

include hp h in
theorem order_perm (free : Bool) : (order p q free).Perm (List.range (p.flatLen free)) := by
  rw [flatLen_leaves free p]
  exact index_perm _ h (leaves_nodup p hp.wf)

include hp hq hQ h in
theorem flatten_order {v : Val Flt} (hv : v.WF) {free : Bool} {vv : Option Bool} {x : NDArray Flt} (hx : p.flatten v (some free) vv = .ok x) :
    q.flatten v (some free) vv = .ok (vec (gather (order p q free) x.data)) := by
  obtain ⟨_, parts, h1, rfl⟩ := (C129_flatten hp hv free vv x).1 hx
  obtain ⟨g, rfl, hg⟩ := choose_blocks (leaves_nodup p hp.wf) h1 (vec [])
  refine (C129_flatten hq hv free vv _).2 ⟨hQ, (nameLeaves q).map g, forall₂_blocks fun l hl => hg l (h.mem_iff.2 hl), ?_⟩
  have hlen : ∀ l ∈ nameLeaves p, (g l).data.length = l.2.flatLen free := fun l hl => by
    obtain ⟨w, h2, h3⟩ := hg l hl
    exact flatten_len (leaves_wf p hp.wf l hl) (pick_wf l.1 hv h2) h3
  have := read_index (fun l : List String × Pattern => l.2.flatLen free) (d := Flt.nan) (g := fun l => (g l).data) h hlen
  rw [List.flatMap_map, List.flatMap_map]
  exact congrArg vec this

include hp hq h in
theorem fold_order {x : List Flt} {free : Bool} {vv : Option Bool} {v : Val Flt} (hx : p.fold (vec x) (some free) vv = .ok v) :
    ∃ w, q.fold (vec (gather (order p q free) x)) (some free) vv = .ok w ∧ ∀ l ∈ nameLeaves p, pick v l.1 = pick w l.1 := by
  obtain ⟨parts, rfl, h1⟩ := C129_fold hp hx
  obtain ⟨g, rfl, hg⟩ := choose_blocks (leaves_nodup p hp.wf) h1 []
  have hlen : ∀ l ∈ nameLeaves p, (g l).length = l.2.flatLen free := fun l hl => by
    have := (hg l hl).1
    rw [flatLength_some] at this
    exact (Except.ok.inj this).symm
  have hr := read_index (fun l : List String × Pattern => l.2.flatLen free) (d := Flt.nan) (g := g) h hlen
  have hy : gather (order p q free) ((nameLeaves p).map g).flatten = ((nameLeaves q).map g).flatten := by
    rw [← List.flatMap_def, ← List.flatMap_def]
    exact hr
  rw [hy]
  obtain ⟨w, hw⟩ := (C129_fold_ok hq ((nameLeaves q).map g).flatten free vv).2
    ⟨_, rfl, forall₂_blocks fun l hl => (hg l (h.mem_iff.2 hl)).2.imp fun _ t => t.2⟩
  refine ⟨w, hw, fun l hl => ?_⟩
  obtain ⟨parts', e, h2⟩ := C129_fold hq hw
  obtain ⟨g', rfl, hg'⟩ := choose_blocks (leaves_nodup q hq.wf) h2 []
  have hlq := h.mem_iff.1 hl
  have hlen' : ∀ l ∈ nameLeaves q, (g' l).length = l.2.flatLen free := fun l hl => by
    have := (hg' l hl).1
    rw [flatLength_some] at this
    exact (Except.ok.inj this).symm
  have e1 := read_place (fun l : List String × Pattern => l.2.flatLen free) (d := Flt.nan) (g := g) (fun m hm => hlen m (h.mem_iff.2 hm)) hlq
  have e2 := read_place (fun l : List String × Pattern => l.2.flatLen free) (d := Flt.nan) (g := g') hlen' hlq
  rw [← List.flatMap_def, ← List.flatMap_def] at e
  rw [e, e2] at e1
  obtain ⟨_, u, p1, f1⟩ := hg l hl
  obtain ⟨_, u', p2, f2⟩ := hg' l hlq
  rw [e1, f1] at f2
  rw [p1, p2, Except.ok.inj f2]

include hp hQ h in
theorem names_order {free : Bool} {delim : String} {names : List String} (hx : p.flatNames (some free) delim = .ok names) :
    q.flatNames (some free) delim = .ok ((order p q free).map fun i => names.getD i "") := by
  obtain ⟨_, parts, h1, rfl⟩ := (C106_names p (some free) delim names).1 hx
  obtain ⟨g, rfl, hg⟩ := choose_blocks (leaves_nodup p hp.wf) h1 []
  refine (C106_names q (some free) delim _).2 ⟨hQ, (nameLeaves q).map g, forall₂_blocks fun l hl => hg l (h.mem_iff.2 hl), ?_⟩
  have hlen : ∀ l ∈ nameLeaves p, (g l).length = l.2.flatLen free := fun l hl => by
    obtain ⟨b, ns, h2, h3, h4⟩ := hg l hl
    have h5 := (C39_names_length b "_").1 ns h3
    rw [flatLength_some] at h5
    rw [h4, List.length_map, ← Except.ok.inj h5]
    rcases h2 with h2 | ⟨h2, _⟩ | h2
    · rw [Option.some.inj h2]
    · cases h2
    · cases hl2 : l.2 with
      | numeric => simp [flatLen]
      | _ => rw [hl2] at h2; exact h2.elim
  have := read_index (fun l : List String × Pattern => l.2.flatLen free) (d := "") (g := g) h hlen
  rw [← List.flatMap_def, ← List.flatMap_def]
  exact this

theorem flt_add_right_comm (a b c : Flt) : a + b + c = a + c + b := by
  have hc : b + c = c + b := by
    cases b <;> cases c <;> first | rfl | (simp only [Flt.add_fin, Flt.fin.injEq]; ring)
  rw [flt_add_assoc, hc, flt_add_assoc]

theorem sum_perm {l m : List Flt} (h : l.Perm m) : Flt.sum l = Flt.sum m :=
  h.foldl_eq' (fun a _ b _ c => flt_add_right_comm c a b) 0

include hp h hP hQ in
theorem logdet_order {f : Pattern → Val Flt → Except Err Flt}
    (hf : ∀ {p : Pattern}, Populated p → ∀ (v : Val Flt) (d : Flt), f p v = .ok d ↔ ∃ ds : List Flt,
      List.Forall₂ (fun (l : List String × Pattern) d => ∃ w, pick v l.1 = some w ∧ f l.2 w = .ok d) (nameLeaves p) ds ∧ d = Flt.sum ds)
    (v : Val Flt) (d : Flt) (hd : f p v = .ok d) : f q v = .ok d := by
  obtain ⟨ds, h1, rfl⟩ := (hf hP v d).1 hd
  obtain ⟨g, rfl, hg⟩ := choose_blocks (leaves_nodup p hp.wf) h1 0
  exact (hf hQ v _).2 ⟨_, forall₂_blocks fun l hl => hg l (h.mem_iff.2 hl), sum_perm (h.map g)⟩

end

/-- Reordered blocks make a reordered block diagonal matrix. -/
theorem blockDiag_order {L : Type} {m n : L → Nat} {A : L → NDArray Flt} {ls ms : List L} (h : ls.Perm ms) (hn : ls.Nodup)
    {J J' : NDArray Flt} (hJ : IsBlockDiag (ls.map fun l => (m l, n l, A l)) J) (hJ' : IsBlockDiag (ms.map fun l => (m l, n l, A l)) J')
    {a b : Nat} (ha : a < (ms.map m).sum) (hb : b < (ms.map n).sum) :
    ∃ i j, (index m ls ms)[a]? = some i ∧ (index n ls ms)[b]? = some j ∧ cell (ms.map n).sum J' a b = cell (ls.map n).sum J i j := by
  have hm := h.nodup_iff.1 hn
  obtain ⟨l, hl, i, hi, rfl, e1⟩ := index_get m (ls := ls) hm ha
  obtain ⟨k, hk, j, hj, rfl, e2⟩ := index_get n (ls := ls) hm hb
  refine ⟨_, _, e1, e2, ?_⟩
  obtain ⟨_, _, h3⟩ := hJ
  obtain ⟨_, _, h4⟩ := hJ'
  obtain ⟨c, c1, c2⟩ := start_take m (h.mem_iff.2 hl)
  obtain ⟨d, d1, d2⟩ := start_take n (h.mem_iff.2 hk)
  obtain ⟨c', c1', c2'⟩ := start_take m hl
  obtain ⟨d', d1', d2'⟩ := start_take n hk
  have t1 := h3 c d (m l) (n l) (m k) (n k) (A l) (A k) (by simp [c1]) (by simp [d1]) i hi j hj
  have t2 := h4 c' d' (m l) (n l) (m k) (n k) (A l) (A k) (by simp [c1']) (by simp [d1']) i hi j hj
  simp only [List.map_map, Function.comp_def, ← List.map_take] at t1 t2
  rw [← c2, ← d2] at t1
  rw [← c2', ← d2'] at t2
  rw [t1, t2]
  have hcd : c = d ↔ l = k := by
    constructor
    · rintro rfl; rw [c1] at d1; exact Option.some.inj d1
    · rintro rfl
      exact (List.getElem?_inj (List.getElem?_eq_some_iff.1 c1).1 hn).1 (c1.trans d1.symm)
  have hcd' : c' = d' ↔ l = k := by
    constructor
    · rintro rfl; rw [c1'] at d1'; exact Option.some.inj d1'
    · rintro rfl
      exact (List.getElem?_inj (List.getElem?_eq_some_iff.1 c1').1 hm).1 (c1'.trans d1'.symm)
  by_cases e : l = k
  · rw [if_pos (hcd.2 e), if_pos (hcd'.2 e)]
  · rw [if_neg fun t => e (hcd.1 t), if_neg fun t => e (hcd'.1 t)]

theorem leaves_toList : ∀ es : Entries, nameLeavesEs es = es.toList.flatMap fun e => (nameLeaves e.2).map fun l => (e.1 :: l.1, l.2)
  | .nil => rfl
  | .cons k p r => by rw [nameLeavesEs, Entries.toList, List.flatMap_cons, leaves_toList r]

/-- **C131.**  Inserting the members of a dictionary in another order gives the same leaves in another order. -/
theorem C131_reordered {es es' : Entries} (h : es.toList.Perm es'.toList) (l l' : Bool) (fd fd' : Option Bool) :
    (nameLeaves (.dict es l fd)).Perm (nameLeaves (.dict es' l' fd')) := by
  rw [nameLeaves, nameLeaves, leaves_toList, leaves_toList]
  exact h.flatMap_right _

/-- **C131.**  For two patterns with the same leaves under the same keys, in any order, there is one reordering of the
coordinates per mode, with which flat values, foldable vectors, names and the rows and columns of both Jacobians are exchanged; it
depends on nothing else. -/
theorem C131_order {p q : Pattern} (hp : Built p) (hq : Built q) (hP : Populated p) (hQ : Populated q) (h : (nameLeaves p).Perm (nameLeaves q)) :
    ∃ idx : Bool → List Nat,
      (∀ free n, p.flatLength (some free) = .ok n → q.flatLength (some free) = .ok n ∧ (idx free).Perm (List.range n)) ∧
      (∀ v : Val Flt, v.WF → ∀ free vv x, p.flatten v (some free) vv = .ok x →
        q.flatten v (some free) vv = .ok (vec ((idx free).map fun i => x.data.getD i .nan))) ∧
      (∀ x free vv v, p.fold (vec x) (some free) vv = .ok v →
        ∃ w, q.fold (vec ((idx free).map fun i => x.getD i .nan)) (some free) vv = .ok w ∧ ∀ l ∈ nameLeaves p, pick v l.1 = pick w l.1) ∧
      (∀ free delim names, p.flatNames (some free) delim = .ok names →
        q.flatNames (some free) delim = .ok ((idx free).map fun i => names.getD i "")) ∧
      (∀ (ad : AutogradJacobian) (v : Val Flt) m n, p.flatLength (some true) = .ok m → p.flatLength (some false) = .ok n →
        (∀ l ∈ nameLeaves p, ∃ w A a b, pick v l.1 = some w ∧ freeingJacobian ad l.2 w = .ok A ∧
          l.2.flatLength (some true) = .ok a ∧ l.2.flatLength (some false) = .ok b ∧ A.shape = [a, b] ∧ A.WF) →
        ∃ J J', freeingJacobian ad p v = .ok J ∧ freeingJacobian ad q v = .ok J' ∧ J.shape = [m, n] ∧ J'.shape = [m, n] ∧
          ∀ a < m, ∀ b < n, ∃ i j, (idx true)[a]? = some i ∧ (idx false)[b]? = some j ∧ cell n J' a b = cell n J i j) ∧
      (∀ (ad : AutogradJacobian) (v : Val Flt) m n, p.flatLength (some true) = .ok m → p.flatLength (some false) = .ok n →
        (∀ l ∈ nameLeaves p, ∃ w A a b, pick v l.1 = some w ∧ unfreeingJacobian ad l.2 w = .ok A ∧
          l.2.flatLength (some true) = .ok a ∧ l.2.flatLength (some false) = .ok b ∧ A.shape = [b, a] ∧ A.WF) →
        ∃ J J', unfreeingJacobian ad p v = .ok J ∧ unfreeingJacobian ad q v = .ok J' ∧ J.shape = [n, m] ∧ J'.shape = [n, m] ∧
          ∀ b < n, ∀ a < m, ∃ i j, (idx false)[b]? = some j ∧ (idx true)[a]? = some i ∧ cell m J' b a = cell m J j i) := by
  have hsum : ∀ free n, p.flatLength (some free) = .ok n → ((nameLeaves p).map fun l => l.2.flatLen free).sum = n ∧
      ((nameLeaves q).map fun l => l.2.flatLen free).sum = n := by
    intro free n hn
    rw [flatLength_some] at hn
    rw [← (h.map fun l => l.2.flatLen free).sum_eq, ← flatLen_leaves free p]
    exact ⟨Except.ok.inj hn, Except.ok.inj hn⟩
  refine ⟨order p q, fun free n hn => ?_, fun v hv free vv x hx => flatten_order hp hq hQ h hv hx, fun x free vv v hx => fold_order hp hq h hx,
    fun free delim names hx => names_order hp hQ h hx, fun ad v m n hm hn hA => ?_, fun ad v m n hm hn hA => ?_⟩
  · refine ⟨?_, ?_⟩
    · rw [flatLength_some, flatLen_leaves free q, (hsum free n hn).2]
    · have := order_perm hp h free
      rw [flatLength_some] at hn
      rwa [Except.ok.inj hn] at this
  · obtain ⟨m1, m2⟩ := hsum true m hm
    obtain ⟨n1, n2⟩ := hsum false n hn
    have hA' : ∀ l ∈ nameLeaves p, ∃ A, (∃ w, pick v l.1 = some w ∧ freeingJacobian ad l.2 w = .ok A) ∧
        A.shape = [l.2.flatLen true, l.2.flatLen false] ∧ A.WF := by
      intro l hl
      obtain ⟨w, A, a, b, h1, h2, h3, h4, h5, h6⟩ := hA l hl
      rw [flatLength_some] at h3 h4
      rw [← Except.ok.inj h3, ← Except.ok.inj h4] at h5
      exact ⟨A, ⟨w, h1, h2⟩, h5, h6⟩
    have : Nonempty (NDArray Flt) := ⟨vec []⟩
    choose! A hA1 hA2 using hA'
    obtain ⟨J, e1, d1⟩ := C129_freeing_jacobian ad hP (v := v)
      (Js := (nameLeaves p).map fun l => (l.2.flatLen true, l.2.flatLen false, A l))
      (fun b hb => by obtain ⟨l, hl, rfl⟩ := List.mem_map.1 hb; exact hA2 l hl) (forall₂_blocks fun l hl => hA1 l hl)
    obtain ⟨J', e2, d2⟩ := C129_freeing_jacobian ad hQ (v := v)
      (Js := (nameLeaves q).map fun l => (l.2.flatLen true, l.2.flatLen false, A l))
      (fun b hb => by obtain ⟨l, hl, rfl⟩ := List.mem_map.1 hb; exact hA2 l (h.mem_iff.2 hl)) (forall₂_blocks fun l hl => hA1 l (h.mem_iff.2 hl))
    refine ⟨J, J', e1, e2, ?_, ?_, fun a ha b hb => ?_⟩
    · rw [d1.1]; simp only [List.map_map, Function.comp_def]; rw [m1, n1]
    · rw [d2.1]; simp only [List.map_map, Function.comp_def]; rw [m2, n2]
    · have := blockDiag_order (m := fun l : List String × Pattern => l.2.flatLen true) (n := fun l => l.2.flatLen false) h (leaves_nodup p hp.wf) d1 d2
        (a := a) (b := b) (by rw [m2]; exact ha) (by rw [n2]; exact hb)
      rwa [n1, n2] at this
  · obtain ⟨m1, m2⟩ := hsum true m hm
    obtain ⟨n1, n2⟩ := hsum false n hn
    have hA' : ∀ l ∈ nameLeaves p, ∃ A, (∃ w, pick v l.1 = some w ∧ unfreeingJacobian ad l.2 w = .ok A) ∧
        A.shape = [l.2.flatLen false, l.2.flatLen true] ∧ A.WF := by
      intro l hl
      obtain ⟨w, A, a, b, h1, h2, h3, h4, h5, h6⟩ := hA l hl
      rw [flatLength_some] at h3 h4
      rw [← Except.ok.inj h3, ← Except.ok.inj h4] at h5
      exact ⟨A, ⟨w, h1, h2⟩, h5, h6⟩
    have : Nonempty (NDArray Flt) := ⟨vec []⟩
    choose! A hA1 hA2 using hA'
    obtain ⟨J, e1, d1⟩ := C129_unfreeing_jacobian ad hP (v := v)
      (Js := (nameLeaves p).map fun l => (l.2.flatLen false, l.2.flatLen true, A l))
      (fun b hb => by obtain ⟨l, hl, rfl⟩ := List.mem_map.1 hb; exact hA2 l hl) (forall₂_blocks fun l hl => hA1 l hl)
    obtain ⟨J', e2, d2⟩ := C129_unfreeing_jacobian ad hQ (v := v)
      (Js := (nameLeaves q).map fun l => (l.2.flatLen false, l.2.flatLen true, A l))
      (fun b hb => by obtain ⟨l, hl, rfl⟩ := List.mem_map.1 hb; exact hA2 l (h.mem_iff.2 hl)) (forall₂_blocks fun l hl => hA1 l (h.mem_iff.2 hl))
    refine ⟨J, J', e1, e2, ?_, ?_, fun b hb a ha => ?_⟩
    · rw [d1.1]; simp only [List.map_map, Function.comp_def]; rw [m1, n1]
    · rw [d2.1]; simp only [List.map_map, Function.comp_def]; rw [m2, n2]
    · obtain ⟨j, i, t1, t2, t3⟩ := blockDiag_order (m := fun l : List String × Pattern => l.2.flatLen false) (n := fun l => l.2.flatLen true) h
        (leaves_nodup p hp.wf) d1 d2 (a := b) (b := a) (by rw [n2]; exact hb) (by rw [m2]; exact ha)
      rw [m1, m2] at t3
      exact ⟨i, j, t1, t2, t3⟩

/-- **C131.**  The log determinants do not depend on the order. -/
theorem C131_log_det {p q : Pattern} (hp : Built p) (hq : Built q) (hP : Populated p) (hQ : Populated q) (h : (nameLeaves p).Perm (nameLeaves q))
    (v : Val Flt) (d : Flt) :
    (logAbsDetFreeing p v = .ok d ↔ logAbsDetFreeing q v = .ok d) ∧ (logAbsDetUnfreeing p v = .ok d ↔ logAbsDetUnfreeing q v = .ok d) :=
  ⟨⟨logdet_order hp hP hQ h C129_log_det_freeing v d, logdet_order hq hQ hP h.symm C129_log_det_freeing v d⟩,
    ⟨logdet_order hp hP hQ h C129_log_det_unfreeing v d, logdet_order hq hQ hP h.symm C129_log_det_unfreeing v d⟩⟩

/-! ### The theorems are not vacuous -/

/-- The members of `exFlat` in the other order. -/
def exSwapped : Pattern :=
  .dict (.cons "b" (.numeric .scalar [1] (.flt .ninf) (.flt .pinf) true none)
    (.cons "a" (.numeric .vector [2] (.int 0) (.flt .pinf) true none) .nil)) false none

theorem exSwapped_built : Built exSwapped :=
  WF.built _ (by simp [exSwapped, Pattern.WF, WFEs, Entries.keys, Entries.toList, lock, PyNum.toFlt, Flt.lt])

/-- Swapped members: their vectors are different, but exchanged by C131. -/
example : Built exFlat ∧ Built exSwapped ∧ Populated exFlat ∧ Populated exSwapped ∧ (nameLeaves exFlat).Perm (nameLeaves exSwapped) ∧ exFlatVal.WF ∧
    exFlat.flatten exFlatVal (some false) (some false) = .ok (vec [.fin 2, .fin 4, .fin 3]) ∧
    exSwapped.flatten exFlatVal (some false) (some false) = .ok (vec [.fin 3, .fin 2, .fin 4]) := by
  have hp : (nameLeaves exFlat).Perm (nameLeaves exSwapped) := by
    refine C131_reordered ?_ _ _ _ _
    simp only [Entries.toList]
    exact List.Perm.swap _ _ _
  have hw : exFlatVal.WF := by simp [exFlatVal, Val.WF, Val.WFEs, NDArray.WF]
  have h1 : Populated exFlat := by simp [exFlat, Populated, PopulatedEs]
  have h2 : Populated exSwapped := by simp [exSwapped, Populated, PopulatedEs]
  have a1 : Acc (.numeric .vector [2] (.int 0) (.flt .pinf) true none) (.arr (⟨[2], [.fin 2, .fin 4]⟩ : NDArray Flt)) (some false) :=
    acc_numeric.mpr ⟨_, rfl, rfl, by simp [Elem.toFlt, PyNum.toFlt, Flt.lt, Flt.gt]⟩
  have a2 : Acc (.numeric .scalar [1] (.flt .ninf) (.flt .pinf) true none) (.arr (⟨[1], [.fin 3]⟩ : NDArray Flt)) (some false) :=
    acc_numeric.mpr ⟨_, rfl, rfl, by simp [Elem.toFlt, PyNum.toFlt, Flt.lt, Flt.gt]⟩
  have g1 : (Pattern.numeric .vector [2] (.int 0) (.flt .pinf) true none).flatten (.arr ⟨[2], [.fin 2, .fin 4]⟩) (some false) (some false) =
      .ok (vec [Flt.fin 2, .fin 4]) := by
    rw [flatten_false, flattenNF_eq _ (by simp [Pattern.WF, PyNum.toFlt, Flt.lt]) _ _ (by simp [Val.WF, NDArray.WF]) (by simp [NoEmpty]) a1]
    rfl
  have g2 : (Pattern.numeric .scalar [1] (.flt .ninf) (.flt .pinf) true none).flatten (.arr ⟨[1], [.fin 3]⟩) (some false) (some false) =
      .ok (vec [Flt.fin 3]) := by
    rw [flatten_false, flattenNF_eq _ (by simp [Pattern.WF, PyNum.toFlt, Flt.lt]) _ _ (by simp [Val.WF, NDArray.WF]) (by simp [NoEmpty]) a2]
    rfl
  refine ⟨exFlat_built, exSwapped_built, h1, h2, hp, hw, ?_, ?_⟩
  · refine (C129_flatten exFlat_built hw false _ _).mpr ⟨h1, [vec [Flt.fin 2, .fin 4], vec [Flt.fin 3]], ?_, rfl⟩
    simp only [exFlat, nameLeaves, nameLeavesEs, List.map_cons, List.map_nil, List.nil_append, List.cons_append]
    exact .cons ⟨_, by simp [exFlatVal, pick, List.lookup], g1⟩ (.cons ⟨_, by simp [exFlatVal, pick, List.lookup], g2⟩ .nil)
  · refine (C129_flatten exSwapped_built hw false _ _).mpr ⟨h2, [vec [Flt.fin 3], vec [Flt.fin 2, .fin 4]], ?_, rfl⟩
    simp only [exSwapped, nameLeaves, nameLeavesEs, List.map_cons, List.map_nil, List.nil_append, List.cons_append]
    exact .cons ⟨_, by simp [exFlatVal, pick, List.lookup], g2⟩ (.cons ⟨_, by simp [exFlatVal, pick, List.lookup], g1⟩ .nil)

/-- The hypotheses about Jacobians hold for this value. -/
example (ad : AutogradJacobian) : ∀ l ∈ nameLeaves exFlat, ∃ w A a b, pick exFlatVal l.1 = some w ∧ freeingJacobian ad l.2 w = .ok A ∧
    l.2.flatLength (some true) = .ok a ∧ l.2.flatLength (some false) = .ok b ∧ A.shape = [a, b] ∧ A.WF := by
  intro l hl
  simp only [exFlat, nameLeaves, nameLeavesEs, List.map_cons, List.map_nil, List.nil_append, List.cons_append, List.mem_cons, List.not_mem_nil, or_false] at hl
  rcases hl with rfl | rfl
  · exact ⟨_, _, 2, 2, by simp [exFlatVal, pick, List.lookup]; rfl, by rw [freeingJacobian]; rfl, rfl, rfl, rfl, by
      simp [NDArray.WF, Numeric.freeingJacobian, diagMat, ofFn2]⟩
  · exact ⟨_, _, 1, 1, by simp [exFlatVal, pick, List.lookup]; rfl, by rw [freeingJacobian]; rfl, rfl, rfl, rfl, by
      simp [NDArray.WF, Numeric.freeingJacobian, diagMat, ofFn2]⟩

end Paragami
