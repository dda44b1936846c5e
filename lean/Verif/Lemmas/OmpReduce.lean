import Verif.Spec.Omp
import Verif.Model.OmpLoops
import Verif.Lemmas.Setup

namespace SFK
open Scalar CR

namespace CRsum

theorem add_comm' (a b : CR) : a + b = b + a := by
  cases a <;> cases b <;> first | rfl | exact congrArg fin (add_comm _ _)
theorem add_assoc' (a b c : CR) : a + b + c = a + (b + c) := by
  cases a <;> cases b <;> cases c <;> first | rfl | exact congrArg fin (add_assoc _ _ _)
theorem zero_add' (a : CR) : fin 0 + a = a := by
  cases a <;> first | rfl | exact congrArg fin (zero_add _)
theorem add_zero' (a : CR) : a + fin 0 = a := by rw [add_comm', zero_add']

/-- sum of a list -/
noncomputable def S (l : List CR) : CR := l.foldr (· + ·) (fin 0)

theorem S_nil : S [] = fin 0 := rfl
theorem S_cons (x : CR) (l : List CR) : S (x :: l) = x + S l := rfl
theorem S_append (l m : List CR) : S (l ++ m) = S l + S m := by
  induction l with
  | nil => exact (zero_add' _).symm
  | cons x l ih => rw [List.cons_append, S_cons, S_cons, ih, add_assoc']
theorem S_perm {l m : List CR} (h : l.Perm m) : S l = S m := by
  induction h with
  | nil => rfl
  | cons x _ ih => rw [S_cons, S_cons, ih]
  | swap x y l => rw [S_cons, S_cons, S_cons, S_cons, ← add_assoc', ← add_assoc', add_comm' x y]
  | trans _ _ h1 h2 => exact h1.trans h2
theorem S_comb {l : List CR} {x : CR} (h : Comb l x) : x = S l := by
  induction h with
  | one x => exact (add_zero' x).symm
  | add hp _ _ h1 h2 => rw [S_perm hp, S_append, ← h1, ← h2]
theorem S_flatten (ts : List (List CR)) : S (ts.map S) = S ts.flatten := by
  induction ts with
  | nil => rfl
  | cons l ts ih => rw [List.map_cons, S_cons, ih, List.flatten_cons, S_append]

theorem foldlM_add {body : Nat → CR → Exec CR} {val : Nat → CR} (l : List Nat) (h : ∀ i ∈ l, ∀ s, body i s = .ok (s + val i)) (s : CR) :
    l.foldlM (fun acc i => body i acc) s = .ok (s + S (l.map val)) := by
  induction l generalizing s with
  | nil => rw [List.foldlM_nil, List.map_nil, S_nil, add_zero']; rfl
  | cons i l ih =>
    rw [List.foldlM_cons, h i (by simp), ok_bind, ih (fun j hj => h j (by simp [hj])), List.map_cons, S_cons, add_assoc']

theorem forRange_add {n : Nat} {body : Nat → CR → Exec CR} {val : Nat → CR} (h : ∀ i, i < n → ∀ s, body i s = .ok (s + val i)) (s : CR) :
    forRange 0 n s body = .ok (s + S ((List.range n).map val)) := by
  have key : ∀ k, k ≤ n → forRange 0 k s body = .ok (s + S ((List.range k).map val)) := by
    intro k hk
    rw [forRange_closed (fun j => s + S ((List.range j).map val)) (Nat.zero_le _)]
    · exact (add_zero' s).symm
    · intro j _ hj
      rw [h j (by omega), List.range_succ, List.map_append, S_append, List.map_singleton, S_cons, S_nil, add_zero', add_assoc']
  exact key n (Nat.le_refl _)

theorem privates_add {n : Nat} {body : Nat → CR → Exec CR} {val : Nat → CR} (h : ∀ i, i < n → ∀ s, body i s = .ok (s + val i))
    {ts : List (List Nat)} (ht : IsSchedule n ts) :
    ∃ ps, privates body ts = .ok ps ∧ ∀ x, Comb (fin 0 :: ps) x → x = S ((List.range n).map val) := by
  have e : privates body ts = .ok (ts.map fun l => S (l.map val)) := by
    have hm : ∀ l ∈ ts, ∀ i ∈ l, i < n := fun l hl i hi =>
      List.mem_range.mp ((ht.mem_iff).mp (List.mem_flatten.mpr ⟨l, hl, hi⟩))
    unfold privates
    clear ht
    induction ts with
    | nil => rfl
    | cons l ts ih =>
      rw [List.mapM_cons, fin_ofNat_zero, foldlM_add l (fun i hi => h i (hm l (by simp) i hi)), ok_bind]
      rw [fin_ofNat_zero] at ih
      rw [ih fun l hl => hm l (by simp [hl]), ok_bind, zero_add']
      rfl
  refine ⟨_, e, fun x hx => ?_⟩
  rw [S_comb hx, S_cons, zero_add']
  have : (ts.map fun l => S (l.map val)) = (ts.map fun l => l.map val).map S := by rw [List.map_map]; rfl
  rw [this, S_flatten, ← List.map_flatten]
  exact S_perm (ht.map val)

end CRsum
end SFK
