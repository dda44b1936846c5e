import Verif.Model.CR
import Mathlib.Data.Int.Log
import Mathlib.Algebra.Order.Round
import Mathlib.Tactic.Positivity
/-
Floating-point arithmetic.  The C++ type `double` and the libm functions the program calls (`+ - * /`, `pow`, `exp`, `log`,
`cos`, `sin`, `acos`, `fabs`, `<`; /repo/Source is compiled without `-ffast-math` and without `-march`, Source/Makefile:8-37, so
that every operation is rounded on its own) are described by the standard model: every operation returns the exact result
up to a rounding error, unless the exact result is too large.  What the operations do on infinities and NaNs, when they overflow
and outside their domains is left open.
-/
namespace SFK
open Scalar CR

/-- `z` is a rounding of the real number `r`: if `r` is in the range of the format, `z` is finite and within `eps(1+|r|)` of `r`
(relative error, plus an absolute error for gradual underflow). -/
def Rounds {T : Type} (val : T → Option ℝ) (eps Omega : ℝ) (z : T) (r : ℝ) : Prop :=
  |r| ≤ Omega → ∃ y, val z = some y ∧ |y - r| ≤ eps * (1 + |r|)

/-- The operations of the scalar type `T` are rounded operations of real numbers. -/
structure Faithful (T : Type) [Scalar T] (val : T → Option ℝ) (eps Omega : ℝ) : Prop where
  add : ∀ a b x y, val a = some x → val b = some y → Rounds val eps Omega (a + b) (x + y)
  sub : ∀ a b x y, val a = some x → val b = some y → Rounds val eps Omega (a - b) (x - y)
  mul : ∀ a b x y, val a = some x → val b = some y → Rounds val eps Omega (a * b) (x * y)
  div : ∀ a b x y, val a = some x → val b = some y → y ≠ 0 → Rounds val eps Omega (a / b) (x / y)
  neg : ∀ a x, val a = some x → val (-a) = some (-x)
  fabs : ∀ a x, val a = some x → val (Scalar.fabs a) = some |x|
  lit : ∀ q : ℚ, Rounds val eps Omega (Scalar.lit q) (q : ℝ)
  pown : ∀ a x k, val a = some x → Rounds val eps Omega (Scalar.pown a k) (x ^ k)
  rt : ∀ a x, val a = some x → 0 ≤ x → Rounds val eps Omega (Scalar.rt a) (Real.sqrt x)
  exp : ∀ a x, val a = some x → Rounds val eps Omega (Scalar.exp a) (Real.exp x)
  log : ∀ a x, val a = some x → 0 < x → Rounds val eps Omega (Scalar.log a) (Real.log x)
  cos : ∀ a x, val a = some x → Rounds val eps Omega (Scalar.cos a) (Real.cos x)
  sin : ∀ a x, val a = some x → Rounds val eps Omega (Scalar.sin a) (Real.sin x)
  acos : ∀ a x, val a = some x → -1 ≤ x → x ≤ 1 → Rounds val eps Omega (Scalar.acos a) (Real.arccos x)
  lt : ∀ a b x y, val a = some x → val b = some y → (Scalar.lt a b = true ↔ x < y)
  pi : Rounds val eps Omega (Scalar.pi : T) Real.pi

/-- A floating-point format: its type of numbers (finite ones and others), its operations, the real number each finite one stands
for (`none` for infinities and NaNs), its rounding error and its range. -/
structure Format where
  T : Type
  inst : Scalar T
  val : T → Option ℝ
  eps : ℝ
  Omega : ℝ
  eps_nonneg : 0 ≤ eps
  faithful : @Faithful T inst val eps Omega

instance (φ : Format) : Scalar φ.T := φ.inst

/-! ## Formats exist: rounding functions -/

/-- a real number stored after rounding: overflow gives the marker `bad` -/
noncomputable def store (rnd : ℝ → ℝ) (Omega : ℝ) (x : ℝ) : CR := open Classical in if |x| ≤ Omega then fin (rnd x) else bad

/-- round the result of an exact operation -/
noncomputable def reround (rnd : ℝ → ℝ) (Omega : ℝ) : CR → CR
  | fin x => store rnd Omega x
  | bad => bad

/-- the operations of exact arithmetic, each followed by a rounding -/
noncomputable def roundedOps (rnd : ℝ → ℝ) (Omega : ℝ) : Scalar CR where
  add a b := reround rnd Omega (Scalar.add a b)
  sub a b := reround rnd Omega (Scalar.sub a b)
  mul a b := reround rnd Omega (Scalar.mul a b)
  div a b := reround rnd Omega (Scalar.div a b)
  neg a := Scalar.neg a
  lit q := reround rnd Omega (Scalar.lit q)
  pown a k := reround rnd Omega (Scalar.pown a k)
  rt a := reround rnd Omega (Scalar.rt a)
  exp a := reround rnd Omega (Scalar.exp a)
  log a := reround rnd Omega (Scalar.log a)
  cos a := reround rnd Omega (Scalar.cos a)
  sin a := reround rnd Omega (Scalar.sin a)
  acos a := reround rnd Omega (Scalar.acos a)
  fabs a := Scalar.fabs a
  lt a b := Scalar.lt a b
  pi := reround rnd Omega Scalar.pi

/-- the value of a checked real -/
def CR.toReal? : CR → Option ℝ
  | fin x => some x
  | bad => none

theorem reround_rounds {rnd : ℝ → ℝ} {eps Omega : ℝ} (h : ∀ x, |rnd x - x| ≤ eps * (1 + |x|)) (x : ℝ) :
    Rounds CR.toReal? eps Omega (reround rnd Omega (fin x)) x := by
  intro hx
  refine ⟨rnd x, ?_, h x⟩
  show CR.toReal? (store rnd Omega x) = _
  unfold store
  rw [if_pos hx]
  rfl

/-- the format of a rounding function -/
noncomputable def Format.ofRnd (rnd : ℝ → ℝ) (eps Omega : ℝ) (h0 : 0 ≤ eps) (h : ∀ x, |rnd x - x| ≤ eps * (1 + |x|)) : Format where
  T := CR
  inst := roundedOps rnd Omega
  val := CR.toReal?
  eps := eps
  Omega := Omega
  eps_nonneg := h0
  faithful := by
    have key := reround_rounds (Omega := Omega) h
    have fn : ∀ {a : CR} {x : ℝ}, CR.toReal? a = some x → a = fin x := by
      intro a x ha
      cases a with
      | fin y => cases ha; rfl
      | bad => cases ha
    refine @Faithful.mk CR (roundedOps rnd Omega) CR.toReal? eps Omega ?_ ?_ ?_ ?_ ?_ ?_ ?_ ?_ ?_ ?_ ?_ ?_ ?_ ?_ ?_ ?_
    · intro a b x y ha hb; rw [fn ha, fn hb]; exact key (x + y)
    · intro a b x y ha hb; rw [fn ha, fn hb]; exact key (x - y)
    · intro a b x y ha hb; rw [fn ha, fn hb]; exact key (x * y)
    · intro a b x y ha hb hy
      rw [fn ha, fn hb]
      show Rounds _ _ _ (reround rnd Omega (fin x / fin y : CR)) _
      rw [fin_div _ _ hy]; exact key _
    · intro a x ha; rw [fn ha]; rfl
    · intro a x ha; rw [fn ha]; rfl
    · intro q; exact key (q : ℝ)
    · intro a x k ha; rw [fn ha]; exact key (x ^ k)
    · intro a x ha hx
      rw [fn ha]
      show Rounds _ _ _ (reround rnd Omega (Scalar.rt (fin x) : CR)) _
      rw [fin_rt _ hx]; exact key _
    · intro a x ha; rw [fn ha]; exact key (Real.exp x)
    · intro a x ha hx
      rw [fn ha]
      show Rounds _ _ _ (reround rnd Omega (Scalar.log (fin x) : CR)) _
      rw [fin_log _ hx]; exact key _
    · intro a x ha; rw [fn ha]; exact key (Real.cos x)
    · intro a x ha; rw [fn ha]; exact key (Real.sin x)
    · intro a x ha h1 h2
      rw [fn ha]
      show Rounds _ _ _ (reround rnd Omega (Scalar.acos (fin x) : CR)) _
      rw [fin_acos _ h1 h2]; exact key _
    · intro a b x y ha hb; rw [fn ha, fn hb]; exact fin_lt x y
    · exact key Real.pi

/-- spacing of the binary numbers with `p` significant bits and smallest exponent `-e` around `x` -/
noncomputable def ulp (p e : ℕ) (x : ℝ) : ℝ := (2 : ℝ) ^ (max (Int.log 2 |x| - p + 1) (-(e : ℤ)))

/-- rounding to the nearest binary number with `p` significant bits, with gradual underflow below `2^(p-1-e)` -/
noncomputable def rndBin (p e : ℕ) (x : ℝ) : ℝ := round (x / ulp p e x) * ulp p e x

theorem rndBin_err {p e : ℕ} (hpe : p ≤ e) (x : ℝ) : |rndBin p e x - x| ≤ (2 : ℝ)⁻¹ ^ p * (1 + |x|) := by
  have hu : 0 < ulp p e x := by unfold ulp; positivity
  have h1 : |rndBin p e x - x| ≤ ulp p e x / 2 := by
    have : rndBin p e x - x = (round (x / ulp p e x) - x / ulp p e x) * ulp p e x := by
      unfold rndBin; field_simp
    rw [this, abs_mul, abs_of_pos hu, abs_sub_comm]
    have := abs_sub_round (x / ulp p e x)
    nlinarith
  refine h1.trans ?_
  have hp : (0 : ℝ) < 2⁻¹ ^ p := by positivity
  have e1 : (2 : ℝ) ^ (-(e : ℤ)) ≤ 2 * 2⁻¹ ^ p := by
    rw [zpow_neg, zpow_natCast, ← inv_pow]
    calc (2:ℝ)⁻¹ ^ e ≤ 2⁻¹ ^ p := pow_le_pow_of_le_one (by norm_num) (by norm_num) hpe
      _ ≤ _ := by linarith
  rcases le_total (Int.log 2 |x| - p + 1) (-(e : ℤ)) with hc | hc
  · have : ulp p e x = (2 : ℝ) ^ (-(e : ℤ)) := by unfold ulp; rw [max_eq_right hc]
    rw [this]
    nlinarith [abs_nonneg x]
  · have hux : ulp p e x = (2 : ℝ) ^ (Int.log 2 |x| - p + 1) := by unfold ulp; rw [max_eq_left hc]
    by_cases hx : x = 0
    · subst hx
      rw [hux]
      have : (2 : ℝ) ^ (Int.log 2 |(0:ℝ)| - p + 1) = 2 * 2⁻¹ ^ p := by
        rw [abs_zero, Int.log_of_right_le_zero _ (le_refl _), zpow_add₀ (by norm_num), zpow_sub₀ (by norm_num)]
        simp [mul_comm]
      rw [this]; simp
    · have hl := Int.zpow_log_le_self (b := 2) (r := |x|) (by norm_num) (abs_pos.mpr hx)
      push_cast at hl
      have : (2 : ℝ) ^ (Int.log 2 |x| - p + 1) = 2 ^ (Int.log 2 |x|) * (2 * 2⁻¹ ^ p) := by
        rw [zpow_add₀ (by norm_num), zpow_sub₀ (by norm_num), inv_pow, zpow_natCast]
        simp only [zpow_one]
        ring
      rw [hux, this]
      nlinarith

/-- binary floating point with `p` significant bits, smallest exponent `-e` and largest number `Omega`; correctly rounded -/
noncomputable def binary (p e : ℕ) (hpe : p ≤ e) (Omega : ℝ) : Format :=
  Format.ofRnd (rndBin p e) (2⁻¹ ^ p) Omega (by positivity) (rndBin_err hpe)

/-- IEEE-754 binary64, round to nearest: `eps = 2^-53`, range `(2-2^-52)*2^1023`, smallest subnormal `2^-1074` -/
noncomputable def binary64 : Format := binary 53 1074 (by norm_num) ((2 - 2⁻¹ ^ 52) * 2 ^ 1023)

end SFK
