import Verif.Model.Memory

/-!
# Specifications about shared memory
-/

namespace Paragami
namespace Spec
open Memory

mutual
/-- All entries of a folded value, in order (members of a dictionary one after another). -/
def leaves {α : Type} : Val α → List α
  | .arr a => a.data
  | .dict es => leavesEs es
/-- `leaves` of every member, concatenated. -/
def leavesEs {α : Type} : List (String × Val α) → List α
  | [] => []
  | (_, v) :: r => leaves v ++ leavesEs r
end

mutual
/-- For every position of the non-free flat vector: does folding put a view of it into the result (`true`), or a copy
(`false`)?  Copies are made exactly below a `PatternArray`. -/
def viewMask : Pattern → List Bool
  | .array s base _ => List.replicate (s.prod * base.flatLen false) false
  | .dict es _ _ => viewMaskEs es
  | p => List.replicate (p.flatLen false) true
/-- `viewMask` of every member, concatenated. -/
def viewMaskEs : Entries → List Bool
  | .nil => []
  | .cons _ p r => viewMask p ++ viewMaskEs r
end

/-- `Shares n bs xs rs`: position by position, where `bs` says `true` the result cell *is* the argument cell, elsewhere it
is a cell that did not exist when there were `n` cells. -/
inductive Shares (n : Nat) : List Bool → List Addr → List Addr → Prop
  | nil : Shares n [] [] []
  | view {bs xs rs} (a : Addr) (h : Shares n bs xs rs) : Shares n (true :: bs) (a :: xs) (a :: rs)
  | copy {bs xs rs} (a b : Addr) (hb : n ≤ b) (h : Shares n bs xs rs) : Shares n (false :: bs) (a :: xs) (b :: rs)

/-- The addresses `as` exist in the memory `m`. -/
def Allocated (m : Mem) (as : List Addr) : Prop := ∀ a ∈ as, a < m.length

end Spec
end Paragami
