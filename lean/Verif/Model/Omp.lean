import Mathlib.Logic.Function.Basic
import Verif.Model.Scalar
/-
Execution base for the OpenMP regions of scalar-field-kerr (`#pragma omp parallel for`, `#pragma omp parallel sections`):
threads that perform individual loads and stores on shared vectors, in any interleaving.  Nothing here models a particular
file of /repo; the parallel functions themselves are written in this language in Model/OmpLoops.lean.

Iterations of a parallel loop (sections of a parallel region) are the units that are interleaved: every distribution of them
over any number of threads, and every order in which the threads advance, is one of the interleavings considered here (so are
nested regions, whether or not nested parallelism is enabled).  The end of a region is a barrier, as in OpenMP.
Vectors and buffers declared inside an iteration are private to it and are ordinary values here.
-/
namespace SFK

/-- The shared vectors, by name. -/
abbrev Mem (ι α : Type) := ι → List α

/-- What a thread still has to do, up to its next access to a shared vector.
`size a k`: read the length of vector `a` (no shared vector is ever resized); `load a i k`: read `a[i]`;
`store a i x k`: `a[i] = x`; `fork n b k`: a parallel region with `n` iterations `b 0, …, b (n-1)`, a barrier, then `k`;
`fail e`: an abnormal end. -/
inductive Th (ι α : Type) where
  | done
  | fail (e : Err)
  | size (a : ι) (k : Nat → Th ι α)
  | load (a : ι) (i : Nat) (k : α → Th ι α)
  | store (a : ι) (i : Nat) (x : α) (k : Th ι α)
  | fork (n : Nat) (b : Nat → Th ι α) (k : Th ι α)

section
variable {ι α : Type} [DecidableEq ι]

/-- One shared access (or one barrier) by one of the running threads. -/
inductive Step : Mem ι α × Th ι α → Mem ι α × Th ι α → Prop where
  | size {m a k} : Step (m, .size a k) (m, k (m a).length)
  | load {m a i k x} : rd (m a) i = .ok x → Step (m, .load a i k) (m, k x)
  | store {m a i x k w} : wr (m a) i x = .ok w → Step (m, .store a i x k) (Function.update m a w, k)
  | child {m m' n b k j t'} : j < n → Step (m, b j) (m', t') →
      Step (m, .fork n b k) (m', .fork n (Function.update b j t') k)
  | join {m n b k} : (∀ j, j < n → b j = .done) → Step (m, .fork n b k) (m, k)

/-- `Steps N c c'`: some interleaving goes from `c` to `c'` in `N` steps. -/
inductive Steps : Nat → Mem ι α × Th ι α → Mem ι α × Th ι α → Prop where
  | refl {c} : Steps 0 c c
  | tail {N c c' c''} : Steps N c c' → Step c' c'' → Steps (N + 1) c c''

/-- The next thing some thread does is an out-of-range access or an abnormal end. -/
inductive Faulty (m : Mem ι α) : Th ι α → Prop where
  | fail {e} : Faulty m (.fail e)
  | load {a i k e} : rd (m a) i = .error e → Faulty m (.load a i k)
  | store {a i x k e} : wr (m a) i x = .error e → Faulty m (.store a i x k)
  | child {n b k j} : j < n → Faulty m (b j) → Faulty m (.fork n b k)

/-- A thread's next shared access: vector, index, is it a store. -/
inductive Next : Th ι α → ι → Nat → Bool → Prop where
  | load {a i k} : Next (.load a i k) a i false
  | store {a i x k} : Next (.store a i x k) a i true
  | child {n b k j a i w} : j < n → Next (b j) a i w → Next (.fork n b k) a i w

/-- A data race: two concurrent threads are both about to access the same element and at least one of them stores. -/
inductive Race : Th ι α → Prop where
  | here {n b k i j a p w w'} : i < n → j < n → i ≠ j → Next (b i) a p w → Next (b j) a p w' → (w || w') = true →
      Race (.fork n b k)
  | child {n b k j} : j < n → Race (b j) → Race (.fork n b k)

/-- The program with the pragmas ignored: iterations one after the other, in index order. -/
def Th.run : Th ι α → Mem ι α → Exec (Mem ι α)
  | .done, m => .ok m
  | .fail e, _ => .error e
  | .size a k, m => (k (m a).length).run m
  | .load a i k, m => (rd (m a) i).bind fun x => (k x).run m
  | .store a i x k, m => (wr (m a) i x).bind fun w => k.run (Function.update m a w)
  | .fork n b k, m => (forRange 0 n m fun j m => (b j).run m).bind fun m => k.run m

/-- Thread code that returns a private value, in continuation-passing form. -/
def ThM (ι α β : Type) := (β → Th ι α) → Th ι α

namespace ThM

instance : Monad (ThM ι α) where
  pure b := fun k => k b
  bind p f := fun k => p fun b => f b k

/-- `a.size()` -/
def size (a : ι) : ThM ι α Nat := fun k => .size a k
/-- `a[i]` on a shared vector -/
def load (a : ι) (i : Nat) : ThM ι α α := fun k => .load a i k
/-- `a[i] = x` on a shared vector -/
def store (a : ι) (i : Nat) (x : α) : ThM ι α Unit := fun k => .store a i x (k ())
/-- code that touches only private data (and members that nobody writes) -/
def lift {β : Type} (e : Exec β) : ThM ι α β := fun k =>
  match e with
  | .ok x => k x
  | .error e => .fail e
/-- `#pragma omp parallel for` -/
def parFor (n : Nat) (body : Nat → ThM ι α Unit) : ThM ι α Unit := fun k =>
  .fork n (fun j => body j fun _ => .done) (k ())
/-- `#pragma omp parallel sections` -/
def sections (l : List (ThM ι α Unit)) : ThM ι α Unit :=
  parFor l.length fun j => l.getD j (pure ())
/-- `cnt` iterations of a sequential loop inside one thread. -/
def forN {σ : Type} : Nat → Nat → σ → (Nat → σ → ThM ι α σ) → ThM ι α σ
  | 0, _, s, _ => fun k => k s
  | c + 1, i, s, b => fun k => b i s fun s' => forN c (i + 1) s' b k
/-- `for (size_t i=lo; i<hi; i++)` inside one thread, with private state. -/
def forT {σ : Type} (lo hi : Nat) (s : σ) (b : Nat → σ → ThM ι α σ) : ThM ι α σ := forN (hi - lo) lo s b
/-- A whole program. -/
def toTh (p : ThM ι α Unit) : Th ι α := p fun _ => .done

end ThM
end

open Scalar in
/-- `reduction(+ : acc)`: thread `t` starts its private copy at 0 and executes the iterations `ts[t]` in order, each
adding to the private copy; the results are the private copies. -/
def privates {α : Type} [Scalar α] (body : Nat → α → Exec α) (ts : List (List Nat)) : Exec (List α) :=
  ts.mapM fun l => l.foldlM (fun acc i => body i acc) 0

end SFK
