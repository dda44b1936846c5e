import Verif.Model.Omp
/-
What "every schedule" means.
-/
namespace SFK

/-- Started from the shared vectors `m`, program `t` behaves the same under every interleaving: there is a bound on the number of steps,
and whatever interleaving has been executed so far, no thread is about to fault, no two concurrent threads are about to access the
same element with one of them storing, some thread can advance unless everything is finished, and when everything is finished the
shared vectors are exactly `mf`. -/
def EverySchedule {ι α : Type} [DecidableEq ι] (t : Th ι α) (m mf : Mem ι α) : Prop :=
  ∃ N, ∀ c m' t', Steps c (m, t) (m', t') →
    c ≤ N ∧ ¬ Faulty m' t' ∧ ¬ Race t' ∧ (t' ≠ .done → ∃ s, Step (m', t') s) ∧ (t' = .done → m' = mf)

/-- `x` is obtained by adding the numbers of `l` in some order and some grouping, each exactly once (OpenMP leaves both unspecified
when it combines the private copies of a `reduction(+)` variable with the original). -/
inductive Comb {α : Type} [Add α] : List α → α → Prop where
  | one (x : α) : Comb [x] x
  | add {l l1 l2 : List α} {x y : α} : l.Perm (l1 ++ l2) → Comb l1 x → Comb l2 y → Comb l (x + y)

/-- A distribution of the iterations `0, …, n-1` over threads: for each thread the iterations it executes, in order. -/
def IsSchedule (n : Nat) (ts : List (List Nat)) : Prop := ts.flatten.Perm (List.range n)

end SFK
