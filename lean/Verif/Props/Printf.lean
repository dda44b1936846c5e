import Verif.Lemmas.Printf
import Verif.Props.Run
import Verif.Props.Files
/-
C108: what a reader of the tables gets.
-/
namespace SFK
open Scalar CR

/-- The values of the type `double`: 53 binary digits (subnormal numbers included; no limit for large exponents). -/
def IsDouble (x : ℝ) : Prop := ∃ m k : ℤ, |m| < 2 ^ 53 ∧ -1074 ≤ k ∧ x = m * (2 : ℝ) ^ k

namespace Printf

theorem roundS_neg (p : ℕ) (x : ℝ) : roundS p (-x) = -roundS p x := by
  unfold roundS
  rcases lt_trichotomy x 0 with h | h | h
  · rw [if_neg (by linarith), if_neg (by linarith), if_neg h.ne, if_pos h, neg_neg]
  · rw [h]; simp
  · rw [if_neg (by linarith), if_pos (by linarith), if_neg h.ne', if_neg (not_lt.mpr h.le), neg_neg]

theorem roundS_pos {p : ℕ} {x : ℝ} (h : 0 < x) : roundS p x = round p x := by
  unfold roundS
  rw [if_neg h.ne', if_neg (not_lt.mpr h.le)]

theorem roundS_zero (p : ℕ) : roundS p 0 = 0 := by unfold roundS; rw [if_pos rfl]

theorem roundS_err (p : ℕ) (x : ℝ) : |roundS p x - x| ≤ (10 : ℝ) ^ (1 - (p : ℤ)) / 2 * |x| := by
  rcases lt_trichotomy x 0 with h | h | h
  · have h1 := round_err (p := p) (x := -x) (by linarith)
    have h2 := roundS_neg p (-x)
    rw [neg_neg] at h2
    rw [h2, roundS_pos (by linarith), abs_of_neg h, abs_sub_comm]
    rw [show x - -round p (-x) = round p (-x) - -x by ring]
    exact h1
  · rw [h, roundS_zero]; simp
  · rw [roundS_pos h, abs_of_pos h]
    exact round_err h

theorem round_pos {p : ℕ} {x : ℝ} (hp : 1 ≤ p) (h : 0 < x) : 0 < round p x := by
  rw [← (sig_val hp h).2.2]
  have : 0 < (sig p x).1 := lt_of_lt_of_le (by positivity) (sig_val hp h).1
  positivity

theorem roundS_mono {p : ℕ} (hp : 1 ≤ p) {x y : ℝ} (h : x ≤ y) : roundS p x ≤ roundS p y := by
  have sgn : ∀ z : ℝ, 0 ≤ z → 0 ≤ roundS p z := by
    intro z hz
    rcases hz.lt_or_eq with h | h
    · rw [roundS_pos h]; exact (round_pos hp h).le
    · rw [← h, roundS_zero]
  rcases lt_or_ge 0 x with h1 | h1
  · rw [roundS_pos h1, roundS_pos (lt_of_lt_of_le h1 h)]
    exact round_mono hp h1 h
  · rcases lt_or_ge y 0 with h2 | h2
    · have e1 := roundS_neg p (-x)
      have e2 := roundS_neg p (-y)
      rw [neg_neg] at e1 e2
      rw [e1, e2, roundS_pos (by linarith), roundS_pos (by linarith), neg_le_neg_iff]
      exact round_mono hp (by linarith) (by linarith)
    · have e1 := roundS_neg p (-x)
      rw [neg_neg] at e1
      have a1 := sgn (-x) (by linarith)
      have a2 := sgn y h2
      linarith

theorem double_neg {x : ℝ} (h : IsDouble x) : IsDouble (-x) := by
  obtain ⟨m, k, h1, h2, h3⟩ := h
  exact ⟨-m, k, by rwa [abs_neg], h2, by rw [h3]; push_cast; ring⟩

/-- neighbouring positive doubles -/
theorem double_gap_pos {x y : ℝ} (hx : IsDouble x) (hy : IsDouble y) (h0 : 0 ≤ x) (h : x < y) : (1 / 2) ^ 53 * y ≤ y - x := by
  obtain ⟨m, k, m1, _, rfl⟩ := hx
  obtain ⟨n, l, n1, _, rfl⟩ := hy
  have hpow : ∀ a b : ℤ, a ≤ b → ∃ c : ℤ, 1 ≤ c ∧ (2 : ℝ) ^ b = c * (2 : ℝ) ^ a := by
    intro a b hab
    obtain ⟨d, hd⟩ := Int.eq_ofNat_of_zero_le (sub_nonneg.mpr hab)
    refine ⟨2 ^ d, one_le_pow₀ (by norm_num), ?_⟩
    push_cast
    rw [← zpow_natCast, ← zpow_add₀ (by norm_num)]
    congr 1
    omega
  rw [abs_lt] at m1 n1
  rcases le_total k l with hkl | hkl
  · obtain ⟨c, c1, hc⟩ := hpow k l hkl
    have hk := zpow_pos (show (0 : ℝ) < 2 by norm_num) k
    rw [hc, ← mul_assoc (n : ℝ)] at h ⊢
    have h2 : m < n * c := by
      have := lt_of_mul_lt_mul_right h hk.le
      exact_mod_cast this
    obtain ⟨M, hM⟩ : ∃ M : ℤ, M = n * c := ⟨_, rfl⟩
    have hM' : (n : ℝ) * c = (M : ℝ) := by rw [hM]; push_cast; ring
    rw [← hM] at h2
    rw [hM']
    have h3 : m + 1 ≤ M := h2
    have h4 : (m : ℝ) + 1 ≤ M := by exact_mod_cast h3
    have h5 : (m : ℝ) ≤ 2 ^ 53 - 1 := by
      have : m ≤ 2 ^ 53 - 1 := by omega
      exact_mod_cast this
    have key : (1 / 2) ^ 53 * (M : ℝ) ≤ M - m := by
      rcases le_total (M : ℝ) (2 ^ 53) with hM2 | hM2
      · have : (1 / 2 : ℝ) ^ 53 * M ≤ 1 := by norm_num at hM2 ⊢; linarith
        linarith
      · norm_num at hM2 h5 ⊢
        linarith
    calc (1 / 2) ^ 53 * ((M : ℝ) * 2 ^ k) = ((1 / 2) ^ 53 * (M : ℝ)) * 2 ^ k := by ring
      _ ≤ ((M : ℝ) - m) * 2 ^ k := mul_le_mul_of_nonneg_right key hk.le
      _ = _ := by ring
  · obtain ⟨c, c1, hc⟩ := hpow l k hkl
    have hl := zpow_pos (show (0 : ℝ) < 2 by norm_num) l
    rw [hc, ← mul_assoc (m : ℝ)] at h ⊢
    have h2 : m * c < n := by
      have := lt_of_mul_lt_mul_right h hl.le
      exact_mod_cast this
    have h3 : m * c + 1 ≤ n := h2
    have h4 : (m : ℝ) * c + 1 ≤ n := by exact_mod_cast h3
    have h5 : (n : ℝ) ≤ 2 ^ 53 := by
      have : n ≤ 2 ^ 53 := by omega
      exact_mod_cast this
    have key : (1 / 2) ^ 53 * (n : ℝ) ≤ n - m * c := by
      have : (1 / 2 : ℝ) ^ 53 * n ≤ 1 := by norm_num at h5 ⊢; linarith
      linarith
    calc (1 / 2) ^ 53 * ((n : ℝ) * 2 ^ l) = ((1 / 2) ^ 53 * (n : ℝ)) * 2 ^ l := by ring
      _ ≤ ((n : ℝ) - m * c) * 2 ^ l := mul_le_mul_of_nonneg_right key hl.le
      _ = _ := by ring

theorem double_gap {x y : ℝ} (hx : IsDouble x) (hy : IsDouble y) (h : x < y) : (1 / 2) ^ 53 * max |x| |y| ≤ y - x := by
  rcases le_total 0 x with h0 | h0
  · have hy0 : 0 < y := lt_of_le_of_lt h0 h
    rw [abs_of_nonneg h0, abs_of_pos hy0, max_eq_right h.le]
    exact double_gap_pos hx hy h0 h
  · rcases le_total y 0 with h1 | h1
    · have := double_gap_pos (double_neg hy) (double_neg hx) (by linarith) (by linarith)
      rw [abs_of_nonpos h0, abs_of_nonpos h1, max_eq_left (by linarith)]
      linarith
    · rw [abs_of_nonpos h0, abs_of_nonneg h1]
      have hm : max (-x) y ≤ y - x := max_le (by linarith) (by linarith)
      have hm0 : 0 ≤ max (-x) y := le_max_of_le_right h1
      calc (1 / 2) ^ 53 * max (-x) y ≤ 1 * max (-x) y := mul_le_mul_of_nonneg_right (by norm_num) hm0
        _ ≤ y - x := by rw [one_mul]; exact hm

end Printf
open Printf

/-- **C108**: the text printed for a finite number is a decimal number, without comma, blank or newline, and its value differs from the number by at most
half a unit of the sixteenth digit. -/
theorem C108_text_partial (nan : List Char) (x : ℝ) :
    (∀ c ∈ fmtCR nan (fin x), c.isDigit = true ∨ c = '-' ∨ c = '+' ∨ c = '.' ∨ c = 'e') ∧
      ∃ v : ℚ, decVal (fmtCR nan (fin x)) = some v ∧ |(v : ℝ) - x| ≤ 5 / 10 ^ 16 * |x| := by
  refine ⟨g_chars 16 x, ?_⟩
  obtain ⟨v, h1, h2⟩ := decVal_g (p := 16) (by norm_num) x
  refine ⟨v, h1, ?_⟩
  rw [h2]
  refine (roundS_err 16 x).trans (mul_le_mul_of_nonneg_right ?_ (abs_nonneg _))
  norm_num [zpow_neg]

/-- **C108**: a number with at most sixteen decimal digits is printed exactly: all integers below `10^16`, so the degrees and coefficient numbers of the
tables, and the floor `-16`. -/
theorem C108_exact (nan : List Char) {k : ℕ} (hk : k < 10 ^ 16) (j : ℤ) :
    decVal (fmtCR nan (fin (k * (10 : ℝ) ^ j))) = some ((k : ℚ) * (10 : ℚ) ^ j) ∧ decVal (fmtCR nan (fin (-(k * (10 : ℝ) ^ j)))) = some (-((k : ℚ) * (10 : ℚ) ^ j)) := by
  have key : roundS 16 (k * (10 : ℝ) ^ j) = k * (10 : ℝ) ^ j := by
    rcases Nat.eq_zero_or_pos k with h | h
    · subst h; simp [roundS_zero]
    · rw [roundS_pos (by positivity)]
      exact round_exact (by norm_num) h hk
  have hc : ∀ v w : ℚ, (v : ℝ) = (w : ℝ) → v = w := fun v w h => by exact_mod_cast h
  obtain ⟨v, h1, h2⟩ := decVal_g (p := 16) (by norm_num) (k * (10 : ℝ) ^ j)
  obtain ⟨w, w1, w2⟩ := decVal_g (p := 16) (by norm_num) (-(k * (10 : ℝ) ^ j))
  rw [roundS_neg, key] at w2
  rw [key] at h2
  refine ⟨h1.trans (congrArg some (hc _ _ ?_)), w1.trans (congrArg some (hc _ _ ?_))⟩
  · rw [h2]; push_cast; rfl
  · rw [w2]; push_cast; rfl

/-- **C108**: the printed number is the nearest one with sixteen significant digits, and half-way between two of them the even one: for `x` between the
16-digit numbers `k*10^j` and `(k+1)*10^j`, and for `-x`. -/
theorem C108_nearest (nan : List Char) {k : ℕ} (hk0 : 10 ^ 15 ≤ k) (hk : k < 10 ^ 16) (j : ℤ) {x : ℝ} (h1 : (k : ℝ) * 10 ^ j ≤ x)
    (h2 : x < ((k : ℝ) + 1) * 10 ^ j) :
    ∃ n : ℕ, decVal (fmtCR nan (fin x)) = some ((n : ℚ) * 10 ^ j) ∧ decVal (fmtCR nan (fin (-x))) = some (-((n : ℚ) * 10 ^ j)) ∧ (n = k ∨ n = k + 1) ∧
      (x < ((k : ℝ) + 1 / 2) * 10 ^ j → n = k) ∧ (((k : ℝ) + 1 / 2) * 10 ^ j < x → n = k + 1) ∧ (x = ((k : ℝ) + 1 / 2) * 10 ^ j → Even n) := by
  have hp : (0 : ℝ) < (10 : ℝ) ^ j := by positivity
  have k1 : (10 : ℝ) ^ (15 : ℤ) ≤ k := by norm_num; exact_mod_cast hk0
  have k2 : (k : ℝ) + 1 ≤ (10 : ℝ) ^ (16 : ℤ) := by norm_num; exact_mod_cast hk
  have x0 : 0 < x := lt_of_lt_of_le (mul_pos (lt_of_lt_of_le (by positivity) k1) hp) h1
  have a1 : (10 : ℝ) ^ (j + 15) ≤ x := by
    rw [add_comm, zpow_add₀ (by norm_num)]
    exact (mul_le_mul_of_nonneg_right k1 hp.le).trans h1
  have a2 : x < (10 : ℝ) ^ (j + 15 + 1) := by
    rw [show j + 15 + 1 = 16 + j by ring, zpow_add₀ (by norm_num)]
    exact lt_of_lt_of_le h2 (mul_le_mul_of_nonneg_right k2 hp.le)
  have hlog : Int.log 10 x = j + 15 := by
    have c1 := (zpow_lt_zpow_iff_right₀ (show (1 : ℝ) < 10 by norm_num)).mp (lt_of_le_of_lt a1 (lt_log x))
    have c2 := (zpow_lt_zpow_iff_right₀ (show (1 : ℝ) < 10 by norm_num)).mp (lt_of_le_of_lt (log_le x0) a2)
    omega
  obtain ⟨y, hy⟩ : ∃ y : ℝ, y = x / 10 ^ j := ⟨_, rfl⟩
  have hxy : x = y * 10 ^ j := by rw [hy, div_mul_cancel₀ _ hp.ne']
  have y1 : (k : ℝ) ≤ y := by rw [hxy] at h1; exact le_of_mul_le_mul_right h1 hp
  have y2 : y < (k : ℝ) + 1 := by rw [hxy] at h2; exact lt_of_mul_lt_mul_right h2 hp.le
  have hfl : ⌊y⌋₊ = k := (Nat.floor_eq_iff ((Nat.cast_nonneg k).trans y1)).mpr ⟨y1, y2⟩
  have hr : roundS 16 x = (rne y : ℝ) * 10 ^ j := by
    rw [roundS_pos x0]
    unfold Printf.round
    rw [hlog, show j + 15 - (((16 : ℕ) : ℤ) - 1) = j by norm_num, ← hy]
  have hc : ∀ v w : ℚ, (v : ℝ) = (w : ℝ) → v = w := fun v w h => by exact_mod_cast h
  obtain ⟨v, v1, v2⟩ := decVal_g (p := 16) (by norm_num) x
  obtain ⟨w, w1, w2⟩ := decVal_g (p := 16) (by norm_num) (-x)
  rw [roundS_neg, hr] at w2
  rw [hr] at v2
  refine ⟨rne y, v1.trans (congrArg some (hc _ _ ?_)), w1.trans (congrArg some (hc _ _ ?_)), ?_, fun h => ?_, fun h => ?_, fun h => ?_⟩
  · rw [v2]; push_cast; rfl
  · rw [w2]; push_cast; rfl
  · unfold rne
    rw [hfl]
    split_ifs <;> simp
  · rw [hxy] at h
    have := lt_of_mul_lt_mul_right h hp.le
    unfold rne
    rw [hfl, if_pos (by linarith)]
  · rw [hxy] at h
    have := lt_of_mul_lt_mul_right h hp.le
    unfold rne
    rw [hfl, if_neg (by linarith), if_pos (by linarith)]
  · rw [hxy] at h
    have := mul_right_cancel₀ hp.ne' h
    unfold rne
    rw [hfl, if_neg (by linarith), if_neg (by linarith)]
    by_cases he : Even k
    · rw [if_pos he]; exact he
    · rw [if_neg he]
      exact (Nat.not_even_iff_odd.mp he).add_one

/-- Non-vacuity: a double half-way between two 16-digit numbers (`(10^15+3+1/2)*10^0`). -/
example : 10 ^ 15 ≤ 10 ^ 15 + 3 ∧ 10 ^ 15 + 3 < 10 ^ 16 ∧ IsDouble ((((10 ^ 15 + 3 : ℕ) : ℝ) + 1 / 2) * 10 ^ (0 : ℤ)) := by
  refine ⟨by norm_num, by norm_num, 2 * (10 ^ 15 + 3) + 1, -1, by norm_num, by norm_num, ?_⟩
  push_cast
  rw [zpow_neg_one]
  norm_num

/-- **C108**: printing keeps the order and the sign. -/
theorem C108_monotone (nan : List Char) {x y : ℝ} {v w : ℚ} (h : x ≤ y) (hv : decVal (fmtCR nan (fin x)) = some v)
    (hw : decVal (fmtCR nan (fin y)) = some w) : v ≤ w ∧ (0 < x → 0 < v) ∧ (y < 0 → w < 0) := by
  obtain ⟨v', a1, a2⟩ := decVal_g (p := 16) (by norm_num) x
  obtain ⟨w', b1, b2⟩ := decVal_g (p := 16) (by norm_num) y
  obtain rfl : v' = v := Option.some_inj.mp (a1.symm.trans hv)
  obtain rfl : w' = w := Option.some_inj.mp (b1.symm.trans hw)
  refine ⟨?_, fun hx => ?_, fun hy => ?_⟩
  · have := roundS_mono (p := 16) (by norm_num) h
    rw [← a2, ← b2] at this
    exact_mod_cast this
  · have := round_pos (p := 16) (by norm_num) hx
    rw [← roundS_pos hx, ← a2] at this
    exact_mod_cast this
  · have := round_pos (p := 16) (x := -y) (by norm_num) (by linarith)
    rw [← roundS_pos (by linarith), roundS_neg, ← b2] at this
    have h2 : (w' : ℝ) < 0 := by linarith
    exact_mod_cast h2

/-- **C108**, the violation: the text does not determine the number.  Two different doubles are printed alike. -/
theorem C108_digits_lost (nan : List Char) : ∃ x y : ℝ, IsDouble x ∧ IsDouble y ∧ x ≠ y ∧ fmtCR nan (fin x) = fmtCR nan (fin y) := by
  have hlog : ∀ x : ℝ, 1 ≤ x → x < 2 → Int.log 10 x = 0 := by
    intro x h1 h2
    have : ⌊x⌋₊ = 1 := (Nat.floor_eq_iff (by linarith)).mpr ⟨by norm_num; exact h1, by norm_num; linarith⟩
    rw [Int.log_of_one_le_right _ h1, this]
    simp
  have hrne : ∀ x : ℝ, 1 ≤ x → x ≤ 1 + 1 / 2 ^ 52 → rne (x / (10 : ℝ) ^ ((0 : ℤ) - (((16 : ℕ) : ℤ) - 1))) = 10 ^ 15 := by
    intro x h1 h2
    have e : (10 : ℝ) ^ ((0 : ℤ) - (((16 : ℕ) : ℤ) - 1)) = 1 / 10 ^ 15 := by norm_num [zpow_neg]
    rw [e, div_div_eq_mul_div, div_one]
    have hfl : ⌊x * 10 ^ 15⌋₊ = 10 ^ 15 := by
      refine (Nat.floor_eq_iff (by positivity)).mpr ⟨?_, ?_⟩
      · norm_num; linarith
      · norm_num at h2 ⊢; linarith
    unfold rne
    rw [hfl, if_pos]
    norm_num at h2 ⊢
    linarith
  have hsig : ∀ x : ℝ, 1 ≤ x → x ≤ 1 + 1 / 2 ^ 52 → sig 16 x = (10 ^ 15, 0) := by
    intro x h1 h2
    unfold sig
    rw [hlog x h1 (lt_of_le_of_lt h2 (by norm_num)), hrne x h1 h2, if_neg (by norm_num)]
  refine ⟨1, 1 + 1 / 2 ^ 52, ⟨1, 0, by norm_num, by norm_num, by norm_num⟩, ⟨2 ^ 52 + 1, -52, by norm_num, by norm_num, ?_⟩, by norm_num, ?_⟩
  · push_cast
    norm_num [zpow_neg]
  · show g 16 1 = g 16 (1 + 1 / 2 ^ 52)
    unfold g
    rw [if_neg (by norm_num), if_neg (by norm_num), if_neg (by norm_num), if_neg (by norm_num)]
    unfold gpos
    rw [hsig 1 (le_refl _) (by norm_num), hsig (1 + 1 / 2 ^ 52) (by norm_num) (le_refl _)]

/-- **C108**: with one digit more (`setprecision(17)`) the text would determine the number. -/
theorem C108_seventeen {x y : ℝ} (hx : IsDouble x) (hy : IsDouble y) (h : Printf.g 17 x = Printf.g 17 y) : x = y := by
  obtain ⟨v, a1, a2⟩ := decVal_g (p := 17) (by norm_num) x
  obtain ⟨w, b1, b2⟩ := decVal_g (p := 17) (by norm_num) y
  rw [h] at a1
  obtain rfl : v = w := Option.some_inj.mp (a1.symm.trans b1)
  have e1 := roundS_err 17 x
  have e2 := roundS_err 17 y
  rw [← a2] at e1
  rw [← b2] at e2
  have hc : (10 : ℝ) ^ (1 - ((17 : ℕ) : ℤ)) / 2 = 1 / 2 / 10 ^ 16 := by norm_num [zpow_neg]
  rw [hc] at e1 e2
  have m1 : |x| ≤ max |x| |y| := le_max_left _ _
  have m2 : |y| ≤ max |x| |y| := le_max_right _ _
  have tri : ∀ a b : ℝ, a < b → (1 / 2) ^ 53 * max |x| |y| ≤ b - a → 0 < max |x| |y| → |(v : ℝ) - a| ≤ 1 / 2 / 10 ^ 16 * max |x| |y| →
      |(v : ℝ) - b| ≤ 1 / 2 / 10 ^ 16 * max |x| |y| → False := by
    intro a b _ hg hM ha hb
    have h1 := (abs_le.mp ha).2
    have h2 := (abs_le.mp hb).1
    norm_num at hg h1 h2
    linarith
  have f1 : |(v : ℝ) - x| ≤ 1 / 2 / 10 ^ 16 * max |x| |y| := e1.trans (mul_le_mul_of_nonneg_left m1 (by norm_num))
  have f2 : |(v : ℝ) - y| ≤ 1 / 2 / 10 ^ 16 * max |x| |y| := e2.trans (mul_le_mul_of_nonneg_left m2 (by norm_num))
  have hM : x ≠ y → 0 < max |x| |y| := by
    intro hne
    by_contra hle
    push Not at hle
    have hx0 := abs_nonpos_iff.mp (m1.trans hle)
    have hy0 := abs_nonpos_iff.mp (m2.trans hle)
    exact hne (hx0.trans hy0.symm)
  rcases lt_trichotomy x y with hlt | heq | hlt
  · exact (tri x y hlt (double_gap hx hy hlt) (hM hlt.ne) f1 f2).elim
  · exact heq
  · have := double_gap hy hx hlt
    rw [max_comm] at this
    exact (tri y x hlt this (hM hlt.ne') f2 f1).elim

/-! ### the tables -/

/-- what a reader of a line gets -/
theorem readRow_line (nan : List Char) (xs : List ℝ) (hne : xs ≠ []) :
    ∃ vs : List ℚ, readRow ([','].intercalate (xs.map fun x => fmtCR nan (fin x)) ++ ['\n']) = some vs ∧
      List.Forall₂ (fun x v => decVal (fmtCR nan (fin x)) = some v) xs vs := by
  have hcomma : ∀ l ∈ xs.map fun x => fmtCR nan (fin x), ',' ∉ l := by
    intro l hl hc
    obtain ⟨x, _, rfl⟩ := List.mem_map.mp hl
    have := (C108_text_partial nan x).1 ',' hc
    revert this
    decide
  have hsplit := List.splitOn_intercalate ',' hcomma (by simpa using hne)
  have hm : ∀ xs : List ℝ, ∃ vs : List ℚ, (xs.map fun x => fmtCR nan (fin x)).mapM decVal = some vs ∧
      List.Forall₂ (fun x v => decVal (fmtCR nan (fin x)) = some v) xs vs := by
    intro xs
    induction xs with
    | nil => exact ⟨[], rfl, List.Forall₂.nil⟩
    | cons x t ih =>
      obtain ⟨vs, h1, h2⟩ := ih
      obtain ⟨_, v, hv, _⟩ := C108_text_partial nan x
      exact ⟨v :: vs, by rw [List.map_cons, List.mapM_cons, hv, h1]; rfl, List.Forall₂.cons hv h2⟩
  obtain ⟨vs, h1, h2⟩ := hm xs
  refine ⟨vs, ?_, h2⟩
  unfold readRow
  rw [List.getLast?_append_of_ne_nil _ (by simp), if_pos (by rfl), List.dropLast_concat, hsplit, h1]

variable {E : Env CR} {P : ParamRec CR} {g : Grid CR} {io : IOEnv CR}

/-- **C108**: reading a table that the program appended to a spectrum file gives, row by row, the radius of the shell to sixteen digits, the degree exactly,
and the logarithm of the power (or -16) to sixteen digits. -/
theorem C108_table (hS : BuiltGrid E P g) {nan : List Char} (hfmt : io.fmt = fmtCR nan) {v : List CR} (hv : v.length = P.nx * P.nlat * P.nphi)
    (hnl : P.nl ≤ 10 ^ 16) (name : List Char) (sc : Bool) (itm : Int) (hc : io.canOpen (name ++ "_RPsl_".toList ++ Text.toStr itm ++ ".csv".toList) = true) :
    ∃ (S : List CR) (R : ℕ → CR) (rows : List (List Char)),
      (∀ J z, z.length = P.nx * P.nl → g.set_angular_power_spectrum J v z = .ok S) ∧
      (∀ ix it ip, ix < P.nx → it < P.nlat → ip < P.nphi → ∃ θ φ, g.getR_th_ph ix it ip = .ok ⟨R ix, θ, φ⟩) ∧
      rows.length = P.nx * P.nl ∧
      (∀ J, Appends (Csv.write_R_psl io g J name sc itm v) (name ++ "_RPsl_".toList ++ Text.toStr itm ++ ".csv".toList)
        ((if sc then ["R,l,log(value)\n".toList] else []) ++ rows)) ∧
      ∀ ix l r s, ix < P.nx → l < P.nl → R ix = fin r → gv S (ix * P.nl + l) = fin s →
        ∃ a b : ℚ, rows[ix * P.nl + l]?.bind readRow = some [a, l, b] ∧ |(a : ℝ) - r| ≤ 5 / 10 ^ 16 * |r| ∧
          (1 / 10 ^ 16 ≤ s → |(b : ℝ) - Real.logb 10 s| ≤ 5 / 10 ^ 16 * |Real.logb 10 s|) ∧ (s < 1 / 10 ^ 16 → b = -16) := by
  obtain ⟨S, R, rows, h1, h2, h3, h4, h5⟩ := C60_spectrum_file hS hv name sc itm hc
  refine ⟨S, R, rows, h1, h2, h3, h5, fun ix l r s hix hl hR hs => ?_⟩
  obtain ⟨c1, c2, y, c3, c4⟩ := C61_log_value s
  have hrow := h4 ix l hix hl
  rw [hR, hs, c3] at hrow
  have hline : specLine io (fin r) (dbl l) (fin y) = [','].intercalate ([r, (l : ℝ), y].map fun x => fmtCR nan (fin x)) ++ ['\n'] := by
    unfold specLine
    rw [hfmt, fin_dbl]
    simp [List.intercalate]
  rw [hline] at hrow
  obtain ⟨vs, r1, r2⟩ := readRow_line nan [r, (l : ℝ), y] (by simp)
  cases r2 with
  | cons ha r2 =>
    rename_i a vs
    cases r2 with
    | cons hb r2 =>
      rename_i l' vs
      cases r2 with
      | cons hcv r2 =>
        rename_i b vs
        cases r2
        have hl' : l' = (l : ℚ) := by
          have := (C108_exact nan (k := l) (by omega) 0).1
          rw [zpow_zero, mul_one, zpow_zero, mul_one] at this
          exact Option.some_inj.mp (hb.symm.trans this)
        subst hl'
        refine ⟨a, b, ?_, ?_, ?_, ?_⟩
        · rw [hrow]
          exact r1
        · obtain ⟨_, a', e1, e2⟩ := C108_text_partial nan r
          obtain rfl : a' = a := Option.some_inj.mp (e1.symm.trans ha)
          exact e2
        · intro hs1
          obtain ⟨_, b', e1, e2⟩ := C108_text_partial nan y
          obtain rfl : b' = b := Option.some_inj.mp (e1.symm.trans hcv)
          have := fin_inj.mp (c3.symm.trans (c1 hs1))
          rw [this] at e2
          exact e2
        · intro hs1
          have := fin_inj.mp (c3.symm.trans (c2 hs1))
          rw [this] at hcv
          have h16 := (C108_exact nan (k := 16) (by norm_num) 0).2
          norm_num at h16
          exact Option.some_inj.mp (hcv.symm.trans h16)

/-- The hypotheses of the theorem on tables are met by a grid the constructor builds; and what the printing function gives for some numbers. -/
example (contig ndebug useCheb : Bool) : ∃ (E : Env CR) (g : Grid CR) (io : IOEnv CR) (v : List CR), BuiltGrid E demoP g ∧ io.fmt = fmtCR "nan".toList ∧
    v.length = demoP.nx * demoP.nlat * demoP.nphi ∧ demoP.nl ≤ 10 ^ 16 ∧ ∀ f, io.canOpen f = true := by
  obtain ⟨E, x, A, g, e, _, _, h3, h4, h5, _, _⟩ := demo_setup contig ndebug useCheb
  exact ⟨E, g, ⟨fun _ => true, fmtCR "nan".toList⟩, List.replicate (demoP.nx * demoP.nlat * demoP.nphi) (fin 0), h5.toBuiltGrid, rfl, by simp, by decide, fun _ => rfl⟩

theorem sig_of {k : ℕ} {e : ℤ} {x : ℝ} (h1 : 10 ^ 15 ≤ k) (h2 : k < 10 ^ 16) (hx : x = k * (10 : ℝ) ^ (e - 15)) : sig 16 x = (k, e) := by
  have h1' : (10 : ℝ) ^ (15 : ℤ) ≤ k := by norm_num; exact_mod_cast h1
  have h2' : (k : ℝ) < (10 : ℝ) ^ (16 : ℤ) := by norm_num; exact_mod_cast h2
  have x0 : 0 < x := by rw [hx]; have : (0 : ℝ) < k := lt_of_lt_of_le (by positivity) h1'; positivity
  have a1 : (10 : ℝ) ^ e ≤ x := by
    rw [hx, show e = 15 + (e - 15) by ring, zpow_add₀ (by norm_num), add_sub_cancel_left]
    exact mul_le_mul_of_nonneg_right h1' (by positivity)
  have a2 : x < (10 : ℝ) ^ (e + 1) := by
    rw [hx, show e + 1 = 16 + (e - 15) by ring, zpow_add₀ (by norm_num)]
    exact mul_lt_mul_of_pos_right h2' (by positivity)
  have hlog : Int.log 10 x = e := by
    have b1 := lt_log x
    have b2 := log_le x0
    have c1 := (zpow_lt_zpow_iff_right₀ (show (1 : ℝ) < 10 by norm_num)).mp (lt_of_le_of_lt a1 b1)
    have c2 := (zpow_lt_zpow_iff_right₀ (show (1 : ℝ) < 10 by norm_num)).mp (lt_of_le_of_lt b2 a2)
    omega
  have hr : rne (x / (10 : ℝ) ^ (Int.log 10 x - (((16 : ℕ) : ℤ) - 1))) = k := by
    rw [hlog, hx]
    rw [show e - (((16 : ℕ) : ℤ) - 1) = e - 15 by norm_num, mul_div_assoc, div_self (by positivity), mul_one, rne_nat]
  unfold sig
  rw [hr, if_neg (by omega), hlog]

example : Printf.g 16 (1 / 2) = "0.5".toList ∧ Printf.g 16 (-125 / 10) = "-12.5".toList ∧ Printf.g 16 (3 / 200000) = "1.5e-05".toList ∧
    Printf.g 16 (10 ^ 20) = "1e+20".toList ∧ Printf.g 16 7 = "7".toList ∧ Printf.g 16 (1 / 10 ^ 4) = "0.0001".toList := by
  unfold Printf.g gpos
  refine ⟨?_, ?_, ?_, ?_, ?_, ?_⟩
  · rw [if_neg (by norm_num), if_neg (by norm_num), sig_of (k := 5 * 10 ^ 15) (e := -1) (by norm_num) (by norm_num) (by norm_num [zpow_neg])]
    decide +kernel
  · rw [if_neg (by norm_num), if_pos (by norm_num), sig_of (k := 125 * 10 ^ 13) (e := 1) (by norm_num) (by norm_num) (by norm_num [zpow_neg])]
    decide +kernel
  · rw [if_neg (by norm_num), if_neg (by norm_num), sig_of (k := 15 * 10 ^ 14) (e := -5) (by norm_num) (by norm_num) (by norm_num [zpow_neg])]
    decide +kernel
  · rw [if_neg (by norm_num), if_neg (by norm_num), sig_of (k := 10 ^ 15) (e := 20) (by norm_num) (by norm_num) (by norm_num [zpow_neg])]
    decide +kernel
  · rw [if_neg (by norm_num), if_neg (by norm_num), sig_of (k := 7 * 10 ^ 15) (e := 0) (by norm_num) (by norm_num) (by norm_num [zpow_neg])]
    decide +kernel
  · rw [if_neg (by norm_num), if_neg (by norm_num), sig_of (k := 10 ^ 15) (e := -4) (by norm_num) (by norm_num) (by norm_num [zpow_neg])]
    decide +kernel

end SFK
