import Verif.Props.ChainRule
import Verif.Props.Optimization

/-! # C89: an optimum over free (and preconditioned) vectors is an optimum over the constraint set -/

namespace Paragami
open NDArray Pattern Spec FunctionPatterns LinAlg Optimization

namespace Spec

/-- A folded value as `fold` returns them, strictly inside the constraint set. -/
def Feasible (p : Pattern) (w : Val Flt) : Prop := Interior p w ∧ canon p w = w

/-- A vector of reals as an array of floats. -/
def floats (x : NDArray ℝ) : NDArray Flt := x.map .fin

end Spec

theorem floats_vecOf {n : Nat} (x : Fin n → ℝ) : floats (vecOf x) = vec ((List.ofFn x).map .fin) := by
  simp [floats, vecOf, NDArray.map, vec]

/-- **C89, free vectors and feasible values.**  Folding is a bijection from the real vectors of the free length onto the feasible values. -/
theorem C89_bijection {p : Pattern} (hp : Built p) (hf : p.FiniteLb) (hne : p.NoEmpty) {n : Nat} (hn : p.flatLength (some true) = .ok n) :
    (∀ x : Fin n → ℝ, ∃ w, p.fold (floats (vecOf x)) (some true) none = .ok w ∧ Feasible p w ∧
      p.flatten w (some true) none = .ok (floats (vecOf x))) ∧
    ∀ w, Feasible p w → ∃! x : Fin n → ℝ, p.fold (floats (vecOf x)) (some true) none = .ok w := by
  have inj : ∀ x y : Fin n → ℝ, floats (vecOf x) = floats (vecOf y) → x = y := by
    intro x y h
    rw [floats_vecOf, floats_vecOf] at h
    have h : (List.ofFn x).map Flt.fin = (List.ofFn y).map Flt.fin := congrArg NDArray.data h
    exact List.ofFn_injective (List.map_injective_iff.mpr (fun a b h => Flt.fin.inj h) h)
  have key : ∀ x : Fin n → ℝ, ∃ w, p.fold (floats (vecOf x)) (some true) none = .ok w ∧ Feasible p w ∧
      p.flatten w (some true) none = .ok (floats (vecOf x)) := by
    intro x
    rw [floats_vecOf]
    have hr : p.flatLength (some true) = .ok (List.ofFn x).length := by rw [List.length_ofFn]; exact hn
    obtain ⟨w, h1, h2, -⟩ := C09_free_fold_valid hp hf hr none
    obtain ⟨w', h3, h4⟩ := C10_free_vector hp hf hne hr none none
    rw [h1] at h3; cases h3
    obtain ⟨r, -, h5⟩ := C11_free_value hp hf hne h2
    obtain ⟨h5, h6⟩ := h5 none none
    rw [h4] at h5; injection h5 with h5
    rw [← h5, h1] at h6; injection h6 with h6
    exact ⟨w, h1, ⟨h2, h6.symm⟩, h4⟩
  refine ⟨key, fun w hw => ?_⟩
  obtain ⟨r, h1, h2⟩ := C11_free_value hp hf hne hw.1
  obtain ⟨h2, h3⟩ := h2 none none
  rw [hn] at h1; injection h1 with h1
  subst h1
  refine ⟨fun i => r.get i, ?_, fun y hy => ?_⟩
  · change p.fold (floats (vecOf fun i => r.get i)) (some true) none = .ok w
    rw [floats_vecOf, List.ofFn_get, h3, hw.2]
  · obtain ⟨w', a1, -, a3⟩ := key y
    rw [hy] at a1; cases a1
    rw [h2] at a3; injection a3 with a3
    apply inj
    rw [← a3, floats_vecOf, List.ofFn_get]

/-- **C89, optimization.**  Let `f` be a function whose argument at position `k` is a folded value, with a real value `φ w` at every feasible `w`.
Wrap it with `FlattenFunctionInput(f, pattern, True, k)` and then with a `PreconditionedFunction`, after any history of calls that leaves it
with mutually inverse functions.  The result is a total function of real vectors; what it computes at `x_c` is `φ` at the folded
`unprecondition(x_c)`; it attains the same values as `φ`; and `x_c` is a minimizer exactly if that folded value minimizes `φ` among the
feasible values. -/
theorem C89_minimum {p : Pattern} (hp : Built p) (hf : p.FiniteLb) (hne : p.NoEmpty) {n : Nat} (hn : p.flatLength (some true) = .ok n)
    (f : Fn ℝ) {k : Nat} {args : List (Arg ℝ)} (hk : k < args.length) (kw : Kwargs ℝ) {φ : Val Flt → ℝ}
    (hφ : ∀ w, Feasible p w → f.call (args.set k (.val w)) kw = .ok (.single (.other (φ w)))) :
    ∃ g, flattenFunctionInput f ⟨[], [p]⟩ ⟨[], [some true]⟩ (some ⟨[], [(k : ℤ)]⟩) = .ok g ∧
      ∀ (eigh : Eigh) (auto : NDArray ℝ → Except Err MatArg) (l : List PrecondOp), Spec.Inverse (Precond.init.run eigh auto l) n →
        let G : NDArray ℝ → Except Err (Ret ℝ) := fun x => g.call (args.set k (.val (.arr (floats x)))) kw
        let s := Precond.init.run eigh auto l
        (∀ xc : Fin n → ℝ, ∃ x w, s.unprecondition (vecOf xc) = .ok x ∧ p.fold (floats x) (some true) none = .ok w ∧ Feasible p w ∧
          s.call G (vecOf xc) = .ok (.single (.other (φ w))) ∧
          ((∀ (xc' : Fin n → ℝ) (y : ℝ), s.call G (vecOf xc') = .ok (.single (.other y)) → φ w ≤ y) ↔ ∀ w', Feasible p w' → φ w ≤ φ w')) ∧
        ∀ w, Feasible p w → ∃ (x : NDArray ℝ) (xc : Fin n → ℝ), p.flatten w (some true) none = .ok (floats x) ∧
          s.precondition x = .ok (vecOf xc) ∧ s.call G (vecOf xc) = .ok (.single (.other (φ w))) := by
  obtain ⟨g, hg, hc⟩ := C84_single f p (some true) hk
  refine ⟨g, hg, fun eigh auto l hinv => ?_⟩
  intro G s
  obtain ⟨b1, b2⟩ := C89_bijection hp hf hne hn
  have hG : ∀ (x : Fin n → ℝ) w, p.fold (floats (vecOf x)) (some true) none = .ok w → Feasible p w → G (vecOf x) = .ok (.single (.other (φ w))) := by
    intro x w h1 h2
    simp only [G, hc, h1, bind, Except.bind]
    exact hφ w h2
  have fwd : ∀ xc : Fin n → ℝ, ∃ x w, s.unprecondition (vecOf xc) = .ok x ∧ p.fold (floats x) (some true) none = .ok w ∧ Feasible p w ∧
      s.call G (vecOf xc) = .ok (.single (.other (φ w))) := by
    intro xc
    obtain ⟨-, y, h1, h2, -⟩ := C54_evaluation eigh auto l G hinv xc
    obtain ⟨w, h4, h5, -⟩ := b1 y
    exact ⟨vecOf y, w, h1, h4, h5, by rw [h2, hG y w h4 h5]⟩
  have bwd : ∀ w, Feasible p w → ∃ (x : NDArray ℝ) (xc : Fin n → ℝ), p.flatten w (some true) none = .ok (floats x) ∧
      s.precondition x = .ok (vecOf xc) ∧ s.call G (vecOf xc) = .ok (.single (.other (φ w))) := by
    intro w hw
    obtain ⟨x, hx, -⟩ := b2 w hw
    obtain ⟨w', a1, -, a3⟩ := b1 x
    rw [hx] at a1; cases a1
    obtain ⟨⟨xc, h1, h2, -⟩, -⟩ := C54_evaluation eigh auto l G hinv x
    exact ⟨vecOf x, xc, a3, h1, by rw [h2, hG x w hx hw]⟩
  refine ⟨fun xc => ?_, bwd⟩
  obtain ⟨x, w, h1, h2, h3, h4⟩ := fwd xc
  refine ⟨x, w, h1, h2, h3, h4, fun h w' hw' => ?_, fun h xc' y hy => ?_⟩
  · obtain ⟨-, xc', -, -, h5⟩ := bwd w' hw'
    exact h xc' _ h5
  · obtain ⟨-, w', -, -, h3', h4'⟩ := fwd xc'
    rw [h4'] at hy
    injection hy with hy; injection hy with hy; injection hy with hy
    exact hy ▸ h w' h3'

/-- **C89, values as the user writes them.**  If `φ` does not look at what the pattern does not describe (extra keys, key order, 0-d arrays), the
minimum among feasible values is the minimum over all values strictly inside the constraint set. -/
theorem C89_canonical {p : Pattern} (hp : Built p) (hf : p.FiniteLb) (hne : p.NoEmpty) {φ : Val Flt → ℝ}
    (hφ : ∀ w, Interior p w → φ (canon p w) = φ w) (c : ℝ) :
    (∀ w, Feasible p w → c ≤ φ w) ↔ ∀ w, Interior p w → c ≤ φ w := by
  refine ⟨fun h w hw => ?_, fun h w hw => h w hw.1⟩
  obtain ⟨r, h1, h2⟩ := C11_free_value hp hf hne hw
  have h3 := (h2 none none).2
  obtain ⟨w', h4, h5, -⟩ := (C89_bijection hp hf hne h1).1 fun i => r.get i
  rw [floats_vecOf, List.ofFn_get, h3] at h4
  injection h4 with h4
  subst h4
  exact hφ w hw ▸ h _ h5

/-- Non-vacuity of C89: a dictionary with all kinds of members, and a preconditioner set to a multiple of the identity. -/
example : Built exPat ∧ exPat.FiniteLb ∧ exPat.NoEmpty ∧ exPat.flatLength (some true) = .ok 11 ∧ (∃ w, Feasible exPat w) ∧
    ∃ s', Precond.init.step (fun _ _ => (0, 0)) (fun _ => .error .typeError) (.setMatrix ⟨ofMatrix ((2 : ℝ) • (1 : Matrix (Fin 11) (Fin 11) ℝ)), false⟩ none) = .ok s' ∧
      Spec.Inverse s' 11 := by
  have h11 : exPat.flatLength (some true) = .ok 11 := exPat_lengths.1
  refine ⟨exPat_built, exPat_finiteLb, exPat_noEmpty, h11, ?_, ?_⟩
  · obtain ⟨w, -, h, -⟩ := (C89_bijection exPat_built exPat_finiteLb exPat_noEmpty h11).1 fun _ => 7
    exact ⟨w, h⟩
  · obtain ⟨s', h1, -, h3, -⟩ := C54_matrix (fun _ _ => (0, 0)) (fun _ => .error .typeError) ((2 : ℝ) • (1 : Matrix (Fin 11) (Fin 11) ℝ)) (by simp) false Precond.init
    exact ⟨s', h1, h3⟩

end Paragami
