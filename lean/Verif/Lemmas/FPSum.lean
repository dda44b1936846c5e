import Verif.Spec.FPSum
import Verif.Spec.Omp
import Verif.Model.OmpLoops
import Verif.Lemmas.Setup
import Mathlib.Data.List.Perm.Basic
import Mathlib.Data.List.Forall2
import Mathlib.Data.Real.Sqrt
import Mathlib.Analysis.SpecialFunctions.Exp

namespace SFK
open Scalar CR

namespace FPSum

variable {φ : Format} {τ : ℝ}

/-- `x` is the sum `S` of nonnegative numbers up to `m` roundings -/
def Wi (φ : Format) (τ : ℝ) (m : ℕ) (x : φ.T) (S : ℝ) : Prop :=
  ∃ r, φ.val x = some r ∧ 0 ≤ r ∧ 0 ≤ S ∧ |r - S| ≤ ((1 + φ.eps) ^ m - 1) * (S + τ)

theorem one_le_pow (φ : Format) (m : ℕ) : 1 ≤ (1 + φ.eps) ^ m := one_le_pow₀ (by linarith [φ.eps_nonneg])

theorem Wi.zero (h : φ.Sharp τ) : Wi φ τ 0 0 0 := ⟨0, h.zero, le_refl _, le_refl _, by simp⟩

theorem Wi.term {x : φ.T} {r : ℝ} (hx : φ.val x = some r) (hr : 0 ≤ r) : Wi φ τ 0 x r := ⟨r, hx, hr, hr, by simp⟩

theorem Wi.upper {m : ℕ} {x : φ.T} {S r : ℝ} (hτ : 0 ≤ τ) (hS : 0 ≤ S) (h : |r - S| ≤ ((1 + φ.eps) ^ m - 1) * (S + τ)) :
    r + τ ≤ (1 + φ.eps) ^ m * (S + τ) := by
  have := (abs_le.mp h).2
  linarith

theorem Wi.add (h : φ.Sharp τ) {a b : ℕ} {x y : φ.T} {Sx Sy : ℝ} (hx : Wi φ τ a x Sx) (hy : Wi φ τ b y Sy)
    (hO : (1 + φ.eps) ^ (a + b) * (Sx + Sy + τ) ≤ φ.Omega) : Wi φ τ (a + b + 1) (x + y) (Sx + Sy) := by
  obtain ⟨r, vx, r0, S0, er⟩ := hx
  obtain ⟨s, vy, s0, T0, es⟩ := hy
  have hτ := h.tau_nonneg
  have he := φ.eps_nonneg
  have hA := one_le_pow φ a
  have hB := one_le_pow φ b
  have e1 : |(r + s) - (Sx + Sy)| ≤ ((1 + φ.eps) ^ (a + b) - 1) * (Sx + Sy + τ) := by
    rw [pow_add]
    generalize (1 + φ.eps) ^ a = A at *
    generalize (1 + φ.eps) ^ b = B at *
    have e0 : |(r + s) - (Sx + Sy)| ≤ (A - 1) * (Sx + τ) + (B - 1) * (Sy + τ) := by
      have : (r + s) - (Sx + Sy) = (r - Sx) + (s - Sy) := by ring
      rw [this]
      exact (abs_add_le _ _).trans (add_le_add er es)
    refine e0.trans ?_
    have c1 : 0 ≤ (A * B - A) * Sx := mul_nonneg (by nlinarith) S0
    have c2 : 0 ≤ (A * B - B) * Sy := mul_nonneg (by nlinarith) T0
    have c3 : 0 ≤ ((A - 1) * (B - 1)) * τ := mul_nonneg (mul_nonneg (by linarith) (by linarith)) hτ
    nlinarith
  have hu : (r + s) + τ ≤ (1 + φ.eps) ^ (a + b) * (Sx + Sy + τ) := Wi.upper (φ := φ) (x := x) hτ (add_nonneg S0 T0) e1
  have rs0 : 0 ≤ r + s := add_nonneg r0 s0
  obtain ⟨z, vz, ez, z0⟩ := h.add x y r s vx vy (by rw [abs_of_nonneg rs0]; linarith)
  refine ⟨z, vz, z0 rs0, add_nonneg S0 T0, ?_⟩
  rw [abs_of_nonneg rs0] at ez
  have : |z - (Sx + Sy)| ≤ |z - (r + s)| + |(r + s) - (Sx + Sy)| := abs_sub_le _ _ _
  refine this.trans ?_
  rw [pow_succ]
  have := mul_le_mul_of_nonneg_left hu he
  nlinarith

theorem Wi.mono (h : φ.Sharp τ) {m n : ℕ} (hmn : m ≤ n) {x : φ.T} {S : ℝ} (hx : Wi φ τ m x S) : Wi φ τ n x S := by
  obtain ⟨r, vx, r0, S0, er⟩ := hx
  refine ⟨r, vx, r0, S0, er.trans ?_⟩
  have := pow_le_pow_right₀ (show 1 ≤ 1 + φ.eps by linarith [φ.eps_nonneg]) hmn
  exact mul_le_mul_of_nonneg_right (by linarith) (add_nonneg S0 h.tau_nonneg)

/-- the range condition for partial sums -/
theorem range_mono (h : φ.Sharp τ) {m n : ℕ} (hmn : m ≤ n) {S R : ℝ} (h0 : 0 ≤ S) (hSR : S ≤ R)
    (hO : (1 + φ.eps) ^ n * (R + τ) ≤ φ.Omega) : (1 + φ.eps) ^ m * (S + τ) ≤ φ.Omega := by
  refine le_trans ?_ hO
  have := pow_le_pow_right₀ (show 1 ≤ 1 + φ.eps by linarith [φ.eps_nonneg]) hmn
  have := one_le_pow φ m
  exact mul_le_mul (by assumption) (by linarith) (by linarith [h.tau_nonneg]) (by linarith)

/-- a term with its value and a bound on its roundings -/
def Good (φ : Format) (τ : ℝ) (t : φ.T) (d : ℝ × ℕ) : Prop := Wi φ τ d.2 t d.1

theorem good_nonneg {l : List φ.T} {D : List (ℝ × ℕ)} (h : List.Forall₂ (Good φ τ) l D) : 0 ≤ (D.map Prod.fst).sum := by
  induction h with
  | nil => simp
  | cons h _ ih =>
    obtain ⟨_, _, _, h0, _⟩ := h
    rw [List.map_cons, List.sum_cons]
    exact add_nonneg h0 ih

/-- accumulation in one thread -/
theorem Wi.foldl (h : φ.Sharp τ) {M : ℕ} {R : ℝ} (hO : (1 + φ.eps) ^ M * (R + τ) ≤ φ.Omega) :
    ∀ (l : List φ.T) (u : List ℝ), List.Forall₂ (fun t r => φ.val t = some r ∧ 0 ≤ r) l u → ∀ (m : ℕ) (x : φ.T) (S : ℝ), Wi φ τ m x S →
      m + l.length ≤ M → S + u.sum ≤ R → Wi φ τ (m + l.length) (l.foldl (· + ·) x) (S + u.sum) := by
  intro l u hlu
  induction hlu with
  | nil => intro m x S hx _ _; simpa using hx
  | @cons t r l u htr hlu ih =>
    intro m x S hx hm hS
    have u0 : 0 ≤ u.sum := List.sum_nonneg fun y hy => by
      obtain ⟨i, hi, rfl⟩ := List.mem_iff_getElem.mp hy
      have hl := hlu.length_eq
      exact ((List.forall₂_iff_get.mp hlu).2 i (by omega) hi).2
    rw [List.length_cons] at hm ⊢
    rw [List.sum_cons] at hS ⊢
    have S0 : 0 ≤ S := hx.choose_spec.2.2.1
    have h1 : Wi φ τ (m + 0 + 1) (x + t) (S + r) :=
      Wi.add h hx (Wi.term htr.1 htr.2) (range_mono h (by omega) (add_nonneg S0 htr.2) (by linarith) hO)
    have := ih (m + 1) (x + t) (S + r) h1 (by omega) (by linarith)
    rw [List.foldl_cons]
    rw [show m + (l.length + 1) = m + 1 + l.length by omega, show S + (r + u.sum) = S + r + u.sum by ring]
    exact this

theorem comb_pos {l : List φ.T} {x : φ.T} (hc : Comb l x) : 1 ≤ l.length := by
  induction hc with
  | one => simp
  | add hp _ _ i1 _ => rw [hp.length_eq, List.length_append]; omega

/-- combination of the private sums in any order and grouping -/
theorem Wi.comb (h : φ.Sharp τ) {M : ℕ} {R : ℝ} (hO : (1 + φ.eps) ^ M * (R + τ) ≤ φ.Omega) {l : List φ.T} {x : φ.T} (hc : Comb l x) :
    ∀ D, List.Forall₂ (Good φ τ) l D → (D.map Prod.snd).sum + l.length ≤ M + 1 → (D.map Prod.fst).sum ≤ R →
      Wi φ τ ((D.map Prod.snd).sum + l.length - 1) x (D.map Prod.fst).sum := by
  induction hc with
  | one x =>
    intro D hD _ _
    cases hD with
    | cons hd hn => cases hn; simpa [Good] using hd
  | @add l l1 l2 x y hp c1 c2 ih1 ih2 =>
    intro D hD hM hR
    obtain ⟨D', hf, hq⟩ := List.perm_comp_forall₂ hp.symm hD
    have e1 : (D.map Prod.snd).sum = (D'.map Prod.snd).sum := ((hq.map _).sum_eq).symm
    have e2 : (D.map Prod.fst).sum = (D'.map Prod.fst).sum := ((hq.map _).sum_eq).symm
    have f1 := (List.forall₂_take_append _ _ _ hf.flip).flip
    have f2 := (List.forall₂_drop_append _ _ _ hf.flip).flip
    obtain ⟨D1, hD1⟩ : ∃ D1, D1 = D'.take l1.length := ⟨_, rfl⟩
    obtain ⟨D2, hD2⟩ : ∃ D2, D2 = D'.drop l1.length := ⟨_, rfl⟩
    have hs : D' = D1 ++ D2 := by rw [hD1, hD2, List.take_append_drop]
    rw [← hD1] at f1
    rw [← hD2] at f2
    rw [e1, hp.length_eq, List.length_append] at hM ⊢
    rw [e2] at hR ⊢
    rw [hs, List.map_append, List.sum_append] at hM hR ⊢
    rw [List.map_append, List.sum_append]
    have n1 := good_nonneg f1
    have n2 := good_nonneg f2
    have k1 := comb_pos c1
    have k2 := comb_pos c2
    have w1 := ih1 D1 f1 (by omega) (by linarith)
    have w2 := ih2 D2 f2 (by omega) (by linarith)
    have := Wi.add h w1 w2 (range_mono h (by omega) (add_nonneg n1 n2) hR hO)
    rw [show (D1.map Prod.snd).sum + (D2.map Prod.snd).sum + (l1.length + l2.length) - 1
      = (D1.map Prod.snd).sum + l1.length - 1 + ((D2.map Prod.snd).sum + l2.length - 1) + 1 by omega]
    exact this

theorem foldlM_terms {α : Type} [Scalar α] {body : Nat → α → Exec α} {terms : Nat → List α} (l : List Nat)
    (h : ∀ i ∈ l, ∀ s, body i s = .ok ((terms i).foldl (· + ·) s)) (s : α) :
    l.foldlM (fun acc i => body i acc) s = .ok ((l.flatMap terms).foldl (· + ·) s) := by
  induction l generalizing s with
  | nil => rfl
  | cons i l ih =>
    rw [List.foldlM_cons, h i (by simp), ok_bind, ih (fun j hj => h j (by simp [hj])), List.flatMap_cons, List.foldl_append]

theorem forRange_terms {α : Type} [Scalar α] {n : Nat} {body : Nat → α → Exec α} {terms : Nat → List α}
    (h : ∀ i, i < n → ∀ s, body i s = .ok ((terms i).foldl (· + ·) s)) (s : α) :
    forRange 0 n s body = .ok (((List.range n).flatMap terms).foldl (· + ·) s) := by
  rw [forRange_closed (fun j => ((List.range j).flatMap terms).foldl (· + ·) s) (Nat.zero_le _)]
  · rfl
  · intro j _ hj
    rw [h j hj, List.range_succ, List.flatMap_append, List.foldl_append]
    simp

theorem privates_terms {α : Type} [Scalar α] {n : Nat} {body : Nat → α → Exec α} {terms : Nat → List α}
    (h : ∀ i, i < n → ∀ s, body i s = .ok ((terms i).foldl (· + ·) s)) {ts : List (List Nat)} (ht : IsSchedule n ts) :
    privates body ts = .ok (ts.map fun l => (l.flatMap terms).foldl (· + ·) 0) := by
  have hm : ∀ l ∈ ts, ∀ i ∈ l, i < n := fun l hl i hi =>
    List.mem_range.mp ((ht.mem_iff).mp (List.mem_flatten.mpr ⟨l, hl, hi⟩))
  unfold privates
  clear ht
  induction ts with
  | nil => rfl
  | cons l ts ih =>
    rw [List.mapM_cons, foldlM_terms l (fun i hi => h i (hm l (by simp) i hi)), ok_bind]
    rw [ih fun l hl => hm l (by simp [hl]), ok_bind]
    rfl

/-- values of the terms of a list of iterations -/
theorem forall₂_flatMap {α β : Type} {R : α → β → Prop} {f : Nat → List α} {g : Nat → List β} :
    ∀ l : List Nat, (∀ i ∈ l, List.Forall₂ R (f i) (g i)) → List.Forall₂ R (l.flatMap f) (l.flatMap g)
  | [], _ => List.Forall₂.nil
  | i :: l, h => by
    rw [List.flatMap_cons, List.flatMap_cons]
    exact List.rel_append (h i (by simp)) (forall₂_flatMap l fun j hj => h j (by simp [hj]))

theorem sum_flatMap (g : Nat → List ℝ) (l : List Nat) : (l.flatMap g).sum = (l.map fun i => (g i).sum).sum := by
  induction l with
  | nil => rfl
  | cons i l ih => rw [List.flatMap_cons, List.sum_append, ih, List.map_cons, List.sum_cons]

theorem length_flatMap' {α : Type} (g : Nat → List α) (l : List Nat) : (l.flatMap g).length = (l.map fun i => (g i).length).sum := by
  induction l with
  | nil => rfl
  | cons i l ih => rw [List.flatMap_cons, List.length_append, ih, List.map_cons, List.sum_cons]

theorem sum_flatten {β : Type} [AddCommMonoid β] (w : Nat → β) (ts : List (List Nat)) :
    (ts.map fun l => (l.map w).sum).sum = (ts.flatten.map w).sum := by
  induction ts with
  | nil => rfl
  | cons l ts ih => rw [List.map_cons, List.sum_cons, ih, List.flatten_cons, List.map_append, List.sum_append]

theorem sum_range {β : Type} [AddCommMonoid β] (w : Nat → β) (n : Nat) : ((List.range n).map w).sum = ∑ i ∈ Finset.range n, w i := by
  induction n with
  | zero => rfl
  | succ n ih => rw [List.range_succ, List.map_append, List.sum_append, ih, Finset.sum_range_succ]; simp

/-- **Sums under every schedule.**  `K` terms with sum `S`, distributed over the threads in any way: every combination of the private
copies with 0 is `S` up to `K + threads` roundings. -/
theorem reduce (h : φ.Sharp τ) {n : Nat} {body : Nat → φ.T → Exec φ.T} {terms : Nat → List φ.T} {u : Nat → List ℝ}
    (hb : ∀ i, i < n → ∀ s, body i s = .ok ((terms i).foldl (· + ·) s))
    (hu : ∀ i, i < n → List.Forall₂ (fun t r => φ.val t = some r ∧ 0 ≤ r) (terms i) (u i)) {ts : List (List Nat)}
    (ht : IsSchedule n ts) {K : ℕ} {S : ℝ} (hK : ∑ i ∈ Finset.range n, (terms i).length = K)
    (hS : ∑ i ∈ Finset.range n, (u i).sum = S) (hO : (1 + φ.eps) ^ (K + ts.length) * (S + τ) ≤ φ.Omega) :
    ∃ ps, privates body ts = .ok ps ∧ ∀ x, Comb (0 :: ps) x → Wi φ τ (K + ts.length) x S := by
  refine ⟨_, privates_terms hb ht, fun x hx => ?_⟩
  have hm : ∀ l ∈ ts, ∀ i ∈ l, i < n := fun l hl i hi =>
    List.mem_range.mp ((ht.mem_iff).mp (List.mem_flatten.mpr ⟨l, hl, hi⟩))
  have hu0 : ∀ i, i < n → 0 ≤ (u i).sum := fun i hi => List.sum_nonneg fun y hy => by
    obtain ⟨j, hj, rfl⟩ := List.mem_iff_getElem.mp hy
    have hl := (hu i hi).length_eq
    exact ((List.forall₂_iff_get.mp (hu i hi)).2 j (by omega) hj).2
  -- totals over the threads
  have tK : (ts.map fun l => (l.flatMap terms).length).sum = K := by
    have : (fun l : List Nat => (l.flatMap terms).length) = fun l => (l.map fun i => (terms i).length).sum :=
      funext fun l => length_flatMap' _ _
    rw [this, sum_flatten, (ht.map _).sum_eq, sum_range, hK]
  have tS : (ts.map fun l => (l.flatMap u).sum).sum = S := by
    have : (fun l : List Nat => (l.flatMap u).sum) = fun l => (l.map fun i => (u i).sum).sum := funext fun l => sum_flatMap _ _
    rw [this, sum_flatten, (ht.map _).sum_eq, sum_range, hS]
  have nn : ∀ l ∈ ts, 0 ≤ (l.flatMap u).sum := by
    intro l hl
    rw [sum_flatMap]
    refine List.sum_nonneg fun y hy => ?_
    obtain ⟨i, hi, rfl⟩ := List.mem_map.mp hy
    exact hu0 i (hm l hl i hi)
  -- private sums
  have key : List.Forall₂ (Good φ τ) (ts.map fun l => (l.flatMap terms).foldl (· + ·) 0)
      (ts.map fun l => ((l.flatMap u).sum, (l.flatMap terms).length)) := by
    rw [List.forall₂_map_left_iff, List.forall₂_map_right_iff, List.forall₂_same]
    intro l hl
    have a1 : (l.flatMap terms).length ≤ K := by
      rw [← tK]; exact List.single_le_sum (fun _ _ => Nat.zero_le _) _ (List.mem_map.mpr ⟨l, hl, rfl⟩)
    have a2 : (l.flatMap u).sum ≤ S := by
      rw [← tS]
      refine List.single_le_sum (fun y hy => ?_) _ (List.mem_map.mpr ⟨l, hl, rfl⟩)
      obtain ⟨l', hl', rfl⟩ := List.mem_map.mp hy
      exact nn l' hl'
    have := Wi.foldl h hO (l.flatMap terms) (l.flatMap u) (forall₂_flatMap l fun i hi => hu i (hm l hl i hi)) 0 0 0 (Wi.zero h)
      (by omega) (by linarith)
    rw [Nat.zero_add, zero_add] at this
    exact this
  have := Wi.comb h hO hx ((0, 0) :: ts.map fun l => ((l.flatMap u).sum, (l.flatMap terms).length))
    (List.Forall₂.cons (Wi.zero h) key)
    (by simp only [List.map_cons, List.map_map, List.sum_cons, Function.comp_def, List.length_cons, List.length_map]; omega)
    (by simp only [List.map_cons, List.map_map, List.sum_cons, Function.comp_def]; linarith)
  simp only [List.map_cons, List.map_map, List.sum_cons, Function.comp_def, List.length_cons, List.length_map, zero_add, tK, tS] at this
  exact this

/-- the sequential loop -/
theorem sequential (h : φ.Sharp τ) {n : Nat} {body : Nat → φ.T → Exec φ.T} {terms : Nat → List φ.T} {u : Nat → List ℝ}
    (hb : ∀ i, i < n → ∀ s, body i s = .ok ((terms i).foldl (· + ·) s))
    (hu : ∀ i, i < n → List.Forall₂ (fun t r => φ.val t = some r ∧ 0 ≤ r) (terms i) (u i)) {K : ℕ} {S : ℝ}
    (hK : ∑ i ∈ Finset.range n, (terms i).length = K)
    (hS : ∑ i ∈ Finset.range n, (u i).sum = S) (hO : (1 + φ.eps) ^ K * (S + τ) ≤ φ.Omega) :
    ∃ x, forRange 0 n 0 body = .ok x ∧ Wi φ τ K x S := by
  refine ⟨_, forRange_terms hb 0, ?_⟩
  have l1 : ((List.range n).flatMap terms).length = K := by rw [length_flatMap', sum_range, hK]
  have l2 : ((List.range n).flatMap u).sum = S := by rw [sum_flatMap, sum_range, hS]
  have := Wi.foldl h hO ((List.range n).flatMap terms) ((List.range n).flatMap u)
    (forall₂_flatMap _ fun i hi => hu i (List.mem_range.mp hi)) 0 0 0 (Wi.zero h) (by omega) (by linarith)
  rw [Nat.zero_add, zero_add, l1, l2] at this
  exact this

/-! ## Division and square root -/

theorem Wi.div (h : φ.Sharp τ) {m : ℕ} {x d : φ.T} {S n : ℝ} (hx : Wi φ τ m x S) (hd : φ.val d = some n) (hn : 1 ≤ n)
    (hO : (1 + φ.eps) ^ m * (S + τ) ≤ φ.Omega) : Wi φ τ (m + 1) (x / d) (S / n) := by
  obtain ⟨r, vx, r0, S0, er⟩ := hx
  have hτ := h.tau_nonneg
  have he := φ.eps_nonneg
  have hA := one_le_pow φ m
  have n0 : 0 < n := by linarith
  have e1 : |r / n - S / n| ≤ ((1 + φ.eps) ^ m - 1) * (S / n + τ) := by
    rw [← sub_div, abs_div, abs_of_pos n0, div_le_iff₀ n0]
    refine er.trans ?_
    rw [mul_assoc]
    refine mul_le_mul_of_nonneg_left ?_ (by linarith)
    rw [add_mul, div_mul_cancel₀ _ n0.ne']
    nlinarith
  have hu := Wi.upper (φ := φ) (x := x) hτ (div_nonneg S0 n0.le) e1
  have hq : 0 ≤ r / n := div_nonneg r0 n0.le
  have hle : (1 + φ.eps) ^ m * (S / n + τ) ≤ φ.Omega := le_trans (mul_le_mul_of_nonneg_left
    (by have := div_le_self S0 hn; linarith) (by linarith)) hO
  obtain ⟨z, vz, ez, z0⟩ := h.div x d r n vx hd n0.ne' (by rw [abs_of_nonneg hq]; linarith)
  refine ⟨z, vz, z0 hq, div_nonneg S0 n0.le, ?_⟩
  rw [abs_of_nonneg hq] at ez
  have : |z - S / n| ≤ |z - r / n| + |r / n - S / n| := abs_sub_le _ _ _
  refine this.trans ?_
  rw [pow_succ]
  have := mul_le_mul_of_nonneg_left hu he
  nlinarith

theorem sqrt_close {r Q B τ : ℝ} (hr : 0 ≤ r) (hQ : 0 ≤ Q) (hB : 0 ≤ B) (hτ : 0 ≤ τ) (h : |r - Q| ≤ B * (Q + τ)) :
    |Real.sqrt r - Real.sqrt Q| ≤ B * Real.sqrt Q + Real.sqrt (B * τ) := by
  have a := abs_le.mp h
  have s1 : 0 ≤ Real.sqrt Q := Real.sqrt_nonneg _
  have s2 : 0 ≤ Real.sqrt (B * τ) := Real.sqrt_nonneg _
  have q1 : Real.sqrt Q ^ 2 = Q := Real.sq_sqrt hQ
  have q2 : Real.sqrt (B * τ) ^ 2 = B * τ := Real.sq_sqrt (mul_nonneg hB hτ)
  have q3 : Real.sqrt r ^ 2 = r := Real.sq_sqrt hr
  have s3 : 0 ≤ Real.sqrt r := Real.sqrt_nonneg _
  generalize Real.sqrt Q = x at *
  generalize Real.sqrt (B * τ) = y at *
  generalize Real.sqrt r = z at *
  rw [abs_le]
  constructor
  · by_contra hc
    push Not at hc
    -- z < (1-B) x - y
    have h1 : z + y + B * x < x := by linarith
    have h2 : (z + y + B * x) ^ 2 < x ^ 2 := by
      apply pow_lt_pow_left₀ h1 (by positivity) (by norm_num)
    nlinarith [mul_nonneg s3 s2, mul_nonneg (mul_nonneg hB s1) s2, mul_nonneg (mul_nonneg hB s1) s3, mul_nonneg hB s1]
  · by_contra hc
    push Not at hc
    have h1 : x + B * x + y < z := by linarith
    have h2 : (x + B * x + y) ^ 2 < z ^ 2 := by
      apply pow_lt_pow_left₀ h1 (by positivity) (by norm_num)
    nlinarith [mul_nonneg s1 s2, mul_nonneg (mul_nonneg hB s1) s2, mul_nonneg (mul_nonneg hB s1) s1, mul_nonneg hB s1,
      mul_nonneg (mul_nonneg hB s1) (mul_nonneg hB s1)]

/-- `(1+e)^m - 1 ≤ 2 m e` for `m e ≤ 1/2` -/
theorem pow_bound {e : ℝ} (he : 0 ≤ e) {m : ℕ} (hm : m * e ≤ 1 / 2) : (1 + e) ^ m - 1 ≤ 2 * m * e := by
  have : ∀ k : ℕ, k ≤ m → (1 + e) ^ k * (1 - k * e) ≤ 1 := by
    intro k
    induction k with
    | zero => intro _; simp
    | succ k ih =>
      intro hk
      have h1 := ih (by omega)
      have hp : 0 < (1 + e) ^ k := by positivity
      have : (1 + e) * (1 - ((k + 1 : ℕ) : ℝ) * e) ≤ 1 - k * e := by push_cast; nlinarith [Nat.cast_nonneg (α := ℝ) k, mul_nonneg he he, mul_nonneg (Nat.cast_nonneg (α := ℝ) k) (mul_nonneg he he)]
      calc (1 + e) ^ (k + 1) * (1 - ((k + 1 : ℕ) : ℝ) * e) = (1 + e) ^ k * ((1 + e) * (1 - ((k + 1 : ℕ) : ℝ) * e)) := by ring
        _ ≤ (1 + e) ^ k * (1 - k * e) := mul_le_mul_of_nonneg_left this hp.le
        _ ≤ 1 := h1
  have h := this m (le_refl _)
  have hp : 0 < (1 + e) ^ m := by positivity
  have h0 : 0 ≤ (m : ℝ) * e := mul_nonneg (Nat.cast_nonneg _) he
  -- (1+e)^m ≤ 2
  have h2 : (1 + e) ^ m ≤ 2 := by nlinarith
  nlinarith

theorem pow_le_two {e : ℝ} (he : 0 ≤ e) {m : ℕ} (hm : m * e ≤ 1 / 2) : (1 + e) ^ m ≤ 2 := by
  have := pow_bound he hm
  linarith

/-- the bounds with explicit constants -/
theorem Wi.explicit (h : φ.Sharp τ) {m : ℕ} {x : φ.T} {S : ℝ} (hx : Wi φ τ m x S) (hm : m * φ.eps ≤ 1 / 2) :
    ∃ r, φ.val x = some r ∧ 0 ≤ r ∧ |r - S| ≤ 2 * m * φ.eps * (S + τ) := by
  obtain ⟨r, vx, r0, S0, er⟩ := hx
  exact ⟨r, vx, r0, er.trans (mul_le_mul_of_nonneg_right (pow_bound φ.eps_nonneg hm) (add_nonneg S0 h.tau_nonneg))⟩

theorem Wi.root (h : φ.Sharp τ) {m : ℕ} {x : φ.T} {S : ℝ} (hx : Wi φ τ m x S) (hm : ((m + 1 : ℕ) : ℝ) * φ.eps ≤ 1 / 2)
    (hτ1 : τ ≤ 1) (hO : 2 * Real.sqrt S + 2 ≤ φ.Omega) :
    ∃ r, φ.val (Scalar.rt x) = some r ∧ 0 ≤ r ∧ |r - Real.sqrt S| ≤ 2 * (m + 1) * φ.eps * Real.sqrt S + 2 * Real.sqrt τ := by
  obtain ⟨r, vx, r0, S0, er⟩ := hx
  have hτ := h.tau_nonneg
  have he := φ.eps_nonneg
  have he1 : φ.eps ≤ 1 / 2 := by
    push_cast at hm
    nlinarith [mul_nonneg (Nat.cast_nonneg (α := ℝ) m) he]
  obtain ⟨B, hBd⟩ : ∃ B, B = (1 + φ.eps) ^ m - 1 := ⟨_, rfl⟩
  have hB0 : 0 ≤ B := by rw [hBd]; linarith [one_le_pow φ m]
  have hm' : (m : ℝ) * φ.eps ≤ 1 / 2 := le_trans (by push_cast; nlinarith) hm
  have hB1 : B ≤ 1 := by rw [hBd]; linarith [pow_le_two he hm']
  have hB2 : B + φ.eps * (1 + B) ≤ 2 * (m + 1) * φ.eps := by
    have := pow_bound he hm
    rw [pow_succ] at this
    push_cast at this
    have e : (1 + φ.eps) ^ m = 1 + B := by rw [hBd]; ring
    rw [e] at this
    linarith
  rw [← hBd] at er
  have c := sqrt_close r0 S0 hB0 hτ er
  have c1 : Real.sqrt (B * τ) ≤ Real.sqrt τ := Real.sqrt_le_sqrt (by nlinarith)
  have c2 : τ ≤ Real.sqrt τ := by
    rw [Real.le_sqrt hτ hτ]; nlinarith
  have c3 : Real.sqrt τ ≤ 1 := Real.sqrt_le_iff.mpr ⟨by norm_num, by linarith⟩
  have cu : Real.sqrt r ≤ (1 + B) * Real.sqrt S + Real.sqrt τ := by
    have := (abs_le.mp c).2
    linarith
  have s0 := Real.sqrt_nonneg S
  have t0 := Real.sqrt_nonneg τ
  have rn := Real.sqrt_nonneg r
  obtain ⟨z, vz, ez, z0⟩ := h.rt x r vx r0 (by
    rw [abs_of_nonneg rn]
    nlinarith)
  refine ⟨z, vz, z0 rn, ?_⟩
  rw [abs_of_nonneg rn] at ez
  have : |z - Real.sqrt S| ≤ |z - Real.sqrt r| + |Real.sqrt r - Real.sqrt S| := abs_sub_le _ _ _
  refine this.trans ?_
  have f1 : φ.eps * (Real.sqrt r + τ) ≤ φ.eps * ((1 + B) * Real.sqrt S + 2 * Real.sqrt τ) :=
    mul_le_mul_of_nonneg_left (by linarith) he
  have f2 : φ.eps * (2 * Real.sqrt τ) ≤ Real.sqrt τ := by nlinarith
  have f3 : (B + φ.eps * (1 + B)) * Real.sqrt S ≤ 2 * (m + 1) * φ.eps * Real.sqrt S := mul_le_mul_of_nonneg_right hB2 s0
  linarith [ez, c, c1, f1, f2, f3]

theorem exists_comb {α : Type} [Add α] : ∀ (l : List α) (x : α), ∃ y, Comb (x :: l) y := by
  intro l
  induction l with
  | nil => exact fun x => ⟨x, .one x⟩
  | cons z l ih => exact fun x => ⟨_, .add (l1 := [x]) (l2 := z :: l) (List.Perm.refl _) (.one x) (ih z).choose_spec⟩

end FPSum
end SFK
