import Verif.Model.Printf
import Verif.Spec.Decimal
import Mathlib.Tactic.Linarith
import Mathlib.Tactic.Ring
import Mathlib.Tactic.FieldSimp
import Mathlib.Tactic.Positivity
import Mathlib.Data.Rat.Cast.Order
import Mathlib.Algebra.Order.Field.Basic
/-
Lemmas on printing: the text of a number reads as the number rounded to `p` significant digits.
-/
namespace SFK
namespace Printf
open scoped Classical

/-! ### rounding -/

theorem rne_err {y : ℝ} (hy : 0 ≤ y) : |(rne y : ℝ) - y| ≤ 1 / 2 := by
  have h1 := Nat.floor_le hy
  have h2 := Nat.lt_floor_add_one y
  unfold rne
  rw [abs_le]
  split_ifs <;> push_cast <;> constructor <;> linarith

theorem rne_mono {x y : ℝ} (hx : 0 ≤ x) (h : x ≤ y) : rne x ≤ rne y := by
  have hf : ⌊x⌋₊ ≤ ⌊y⌋₊ := Nat.floor_le_floor h
  rcases hf.lt_or_eq with h1 | h1
  · have e1 : rne x ≤ ⌊x⌋₊ + 1 := by unfold rne; split_ifs <;> omega
    have e2 : ⌊y⌋₊ ≤ rne y := by unfold rne; split_ifs <;> omega
    omega
  · unfold rne
    rw [h1]
    split_ifs <;> first | omega | (exfalso; linarith)

theorem rne_nat (n : ℕ) : rne (n : ℝ) = n := by
  unfold rne
  rw [Nat.floor_natCast, sub_self, if_pos (by norm_num)]

/-! ### the value of the digits -/

/-- `x` rounded to `p` significant digits -/
noncomputable def round (p : ℕ) (x : ℝ) : ℝ := rne (x / (10 : ℝ) ^ (Int.log 10 x - (p - 1))) * (10 : ℝ) ^ (Int.log 10 x - (p - 1))

theorem log_le {x : ℝ} (hx : 0 < x) : (10 : ℝ) ^ Int.log 10 x ≤ x := by
  have := Int.zpow_log_le_self (b := 10) (by norm_num) hx
  exact_mod_cast this

theorem lt_log (x : ℝ) : x < (10 : ℝ) ^ (Int.log 10 x + 1) := by
  have := Int.lt_zpow_succ_log_self (b := 10) (by norm_num) x
  exact_mod_cast this

theorem ten_zpow_pos (k : ℤ) : 0 < (10 : ℝ) ^ k := by positivity

theorem scaled {p : ℕ} {x : ℝ} (hp : 1 ≤ p) (hx : 0 < x) :
    ((10 ^ (p - 1) : ℕ) : ℝ) ≤ x / (10 : ℝ) ^ (Int.log 10 x - (p - 1)) ∧ x / (10 : ℝ) ^ (Int.log 10 x - (p - 1)) < ((10 ^ p : ℕ) : ℝ) := by
  have h0 := ten_zpow_pos (Int.log 10 x - (p - 1))
  have e1 : ((10 ^ (p - 1) : ℕ) : ℝ) * (10 : ℝ) ^ (Int.log 10 x - (p - 1)) = (10 : ℝ) ^ Int.log 10 x := by
    rw [Nat.cast_pow, ← zpow_natCast, Nat.cast_ofNat, ← zpow_add₀ (by norm_num), Nat.cast_sub hp]
    congr 1
    push_cast
    ring
  have e2 : ((10 ^ p : ℕ) : ℝ) * (10 : ℝ) ^ (Int.log 10 x - (p - 1)) = (10 : ℝ) ^ (Int.log 10 x + 1) := by
    rw [Nat.cast_pow, ← zpow_natCast, Nat.cast_ofNat, ← zpow_add₀ (by norm_num)]
    congr 1
    ring
  rw [le_div_iff₀ h0, div_lt_iff₀ h0, e1, e2]
  exact ⟨log_le hx, lt_log x⟩

theorem rne_range {p : ℕ} {x : ℝ} (hp : 1 ≤ p) (hx : 0 < x) :
    10 ^ (p - 1) ≤ rne (x / (10 : ℝ) ^ (Int.log 10 x - (p - 1))) ∧ rne (x / (10 : ℝ) ^ (Int.log 10 x - (p - 1))) ≤ 10 ^ p := by
  obtain ⟨h1, h2⟩ := scaled hp hx
  constructor
  · have := rne_mono (by positivity) h1
    rwa [rne_nat] at this
  · have := rne_mono (le_trans (by positivity) h1) h2.le
    rwa [rne_nat] at this

/-- the digits and the exponent -/
theorem sig_val {p : ℕ} {x : ℝ} (hp : 1 ≤ p) (hx : 0 < x) :
    10 ^ (p - 1) ≤ (sig p x).1 ∧ (sig p x).1 < 10 ^ p ∧ ((sig p x).1 : ℝ) * (10 : ℝ) ^ ((sig p x).2 - (p - 1)) = round p x := by
  obtain ⟨h1, h2⟩ := rne_range hp hx
  have h10 : 10 ^ (p - 1) < 10 ^ p := Nat.pow_lt_pow_right (by norm_num) (by omega)
  unfold sig round
  by_cases h : rne (x / (10 : ℝ) ^ (Int.log 10 x - (p - 1))) = 10 ^ p
  · rw [if_pos h, h]
    refine ⟨le_refl _, h10, ?_⟩
    dsimp only
    rw [Nat.cast_pow, Nat.cast_pow, ← zpow_natCast, ← zpow_natCast, Nat.cast_ofNat, ← zpow_add₀ (by norm_num), ← zpow_add₀ (by norm_num), Nat.cast_sub hp]
    congr 1
    push_cast
    ring
  · rw [if_neg h]
    exact ⟨h1, lt_of_le_of_ne h2 h, rfl⟩

theorem round_err {p : ℕ} {x : ℝ} (hx : 0 < x) : |round p x - x| ≤ (10 : ℝ) ^ (1 - (p : ℤ)) / 2 * x := by
  have h0 := ten_zpow_pos (Int.log 10 x - (p - 1))
  have h1 := rne_err (y := x / (10 : ℝ) ^ (Int.log 10 x - (p - 1))) (by positivity)
  have e : round p x - x = (rne (x / (10 : ℝ) ^ (Int.log 10 x - (p - 1))) - x / (10 : ℝ) ^ (Int.log 10 x - (p - 1))) * (10 : ℝ) ^ (Int.log 10 x - (p - 1)) := by
    unfold round
    rw [sub_mul, div_mul_cancel₀ _ h0.ne']
  have e2 : (10 : ℝ) ^ (Int.log 10 x - (p - 1)) ≤ (10 : ℝ) ^ (1 - (p : ℤ)) * x := by
    rw [show Int.log 10 x - ((p : ℤ) - 1) = (1 - (p : ℤ)) + Int.log 10 x by ring, zpow_add₀ (by norm_num)]
    exact mul_le_mul_of_nonneg_left (log_le hx) (by positivity)
  rw [e, abs_mul, abs_of_pos h0]
  calc _ ≤ 1 / 2 * (10 : ℝ) ^ (Int.log 10 x - (p - 1)) := mul_le_mul_of_nonneg_right h1 h0.le
    _ ≤ 1 / 2 * ((10 : ℝ) ^ (1 - (p : ℤ)) * x) := mul_le_mul_of_nonneg_left e2 (by norm_num)
    _ = _ := by ring

theorem round_mono {p : ℕ} {x y : ℝ} (hp : 1 ≤ p) (hx : 0 < x) (h : x ≤ y) : round p x ≤ round p y := by
  have hy : 0 < y := lt_of_lt_of_le hx h
  have hl : Int.log 10 x ≤ Int.log 10 y := Int.log_mono_right hx h
  rcases hl.lt_or_eq with h1 | h1
  · have a1 := (rne_range hp hx).2
    have a2 := (rne_range hp hy).1
    have e1 : ((10 ^ (p - 1) : ℕ) : ℝ) * (10 : ℝ) ^ (Int.log 10 y - (p - 1)) = (10 : ℝ) ^ Int.log 10 y := by
      rw [Nat.cast_pow, ← zpow_natCast, Nat.cast_ofNat, ← zpow_add₀ (by norm_num), Nat.cast_sub hp]
      congr 1
      push_cast
      ring
    have e2 : ((10 ^ p : ℕ) : ℝ) * (10 : ℝ) ^ (Int.log 10 x - (p - 1)) = (10 : ℝ) ^ (Int.log 10 x + 1) := by
      rw [Nat.cast_pow, ← zpow_natCast, Nat.cast_ofNat, ← zpow_add₀ (by norm_num)]
      congr 1
      ring
    unfold round
    calc _ ≤ ((10 ^ p : ℕ) : ℝ) * (10 : ℝ) ^ (Int.log 10 x - (p - 1)) := mul_le_mul_of_nonneg_right (by exact_mod_cast a1) (by positivity)
      _ = (10 : ℝ) ^ (Int.log 10 x + 1) := e2
      _ ≤ (10 : ℝ) ^ Int.log 10 y := zpow_le_zpow_right₀ (by norm_num) h1
      _ = _ := e1.symm
      _ ≤ _ := mul_le_mul_of_nonneg_right (by exact_mod_cast a2) (by positivity)
  · unfold round
    rw [h1]
    refine mul_le_mul_of_nonneg_right ?_ (by positivity)
    exact_mod_cast rne_mono (by positivity) (div_le_div_of_nonneg_right h (by positivity))

/-- numbers with at most `p` digits are kept -/
theorem round_exact {p k : ℕ} {j : ℤ} (hp : 1 ≤ p) (hk0 : 0 < k) (hk : k < 10 ^ p) : round p ((k : ℝ) * (10 : ℝ) ^ j) = (k : ℝ) * (10 : ℝ) ^ j := by
  obtain ⟨x, hx⟩ : ∃ x, x = (k : ℝ) * (10 : ℝ) ^ j := ⟨_, rfl⟩
  have hk0' : (0 : ℝ) < k := by exact_mod_cast hk0
  have x0 : 0 < x := by rw [hx]; positivity
  rw [← hx]
  have hj : 0 ≤ j - (Int.log 10 x - (p - 1)) := by
    by_contra hneg
    push Not at hneg
    have h1 : x < (10 : ℝ) ^ Int.log 10 x := by
      have hk' : (k : ℝ) < (10 : ℝ) ^ (p : ℤ) := by rw [zpow_natCast]; exact_mod_cast hk
      calc x = k * (10 : ℝ) ^ j := hx
        _ < (10 : ℝ) ^ (p : ℤ) * (10 : ℝ) ^ j := mul_lt_mul_of_pos_right hk' (by positivity)
        _ = (10 : ℝ) ^ ((p : ℤ) + j) := (zpow_add₀ (by norm_num) _ _).symm
        _ ≤ _ := zpow_le_zpow_right₀ (by norm_num) (by omega)
    exact absurd (log_le x0) (not_le.mpr h1)
  obtain ⟨n, hn⟩ := Int.eq_ofNat_of_zero_le hj
  have e : x / (10 : ℝ) ^ (Int.log 10 x - (p - 1)) = ((k * 10 ^ n : ℕ) : ℝ) := by
    rw [div_eq_iff (by positivity)]
    conv_lhs => rw [hx]
    push_cast
    rw [mul_assoc, ← zpow_natCast, ← zpow_add₀ (by norm_num)]
    congr 2
    omega
  unfold round
  rw [e, rne_nat, ← e, div_mul_cancel₀ _ (by positivity)]

/-! ### reading the text -/

theorem mem_takeWhile {q : Char → Bool} : ∀ {l : List Char} {b : Char}, b ∈ l.takeWhile q → q b = true
  | [], _, h => absurd h List.not_mem_nil
  | c :: t, b, h => by
    rw [List.takeWhile_cons] at h
    split_ifs at h with hq
    · rcases List.mem_cons.mp h with h | h
      · rw [h]; exact hq
      · exact mem_takeWhile h
    · exact absurd h List.not_mem_nil

theorem strip_spec (s : List Char) : ∃ n, s = strip s ++ List.replicate n '0' := by
  unfold strip
  refine ⟨(s.reverse.takeWhile (· == '0')).length, ?_⟩
  have h : (s.reverse.takeWhile (· == '0')) = List.replicate (s.reverse.takeWhile (· == '0')).length '0' := by
    refine List.eq_replicate_iff.mpr ⟨rfl, fun b hb => ?_⟩
    exact beq_iff_eq.mp (mem_takeWhile (q := fun x => x == '0') hb)
  have h2 : s = (s.reverse.dropWhile (· == '0')).reverse ++ (s.reverse.takeWhile (· == '0')).reverse := by
    rw [← List.reverse_append, List.takeWhile_append_dropWhile, List.reverse_reverse]
  rw [← h]
  conv_lhs => rw [h2]
  rw [h, List.reverse_replicate]

theorem strip_digits {s : List Char} (h : ∀ c ∈ s, c.isDigit = true) : ∀ c ∈ strip s, c.isDigit = true := by
  intro c hc
  obtain ⟨n, hn⟩ := strip_spec s
  exact h c (by rw [hn]; exact List.mem_append_left _ hc)

theorem strip_val (i s : List Char) :
    ((Nat.ofDigitChars 10 (i ++ s) 0 : ℕ) : ℚ) * 10 ^ (-(s.length : ℤ)) = ((Nat.ofDigitChars 10 (i ++ strip s) 0 : ℕ) : ℚ) * 10 ^ (-((strip s).length : ℤ)) := by
  obtain ⟨n, hn⟩ := strip_spec s
  have e1 : Nat.ofDigitChars 10 (i ++ s) 0 = 10 ^ n * Nat.ofDigitChars 10 (i ++ strip s) 0 := by
    conv_lhs => rw [hn]
    rw [← List.append_assoc, Nat.ofDigitChars_append, Nat.ofDigitChars_replicate_zero]
  have e2 : (s.length : ℤ) = (strip s).length + n := by
    conv_lhs => rw [hn]
    simp
  rw [e1, e2]
  push_cast
  rw [neg_add, zpow_add₀ (by norm_num), zpow_neg (10 : ℚ) (n : ℤ), zpow_natCast]
  field_simp

theorem span_digits {i r : List Char} (hi : ∀ c ∈ i, c.isDigit = true) (hr : ∀ c, r.head? = some c → c.isDigit = false) :
    (i ++ r).takeWhile Char.isDigit = i ∧ (i ++ r).dropWhile Char.isDigit = r := by
  induction i with
  | nil =>
    cases r with
    | nil => simp
    | cons c t =>
      have := hr c rfl
      simp [this]
  | cons c t ih =>
    obtain ⟨h1, h2⟩ := ih fun c hc => hi c (List.mem_cons_of_mem _ hc)
    have := hi c List.mem_cons_self
    simp [this, h1, h2]

/-- text that may follow the digits: nothing, or an exponent -/
inductive Tail : List Char → ℤ → Prop
  | none : Tail [] 0
  | expo (X : ℤ) : Tail (expo X) X

theorem Tail.head {E : List Char} {X : ℤ} (h : Tail E X) : ∀ c, E.head? = some c → c.isDigit = false ∧ c ≠ '.' := by
  cases h with
  | none => intro c hc; simp at hc
  | expo X =>
    intro c hc
    unfold Printf.expo at hc
    rw [List.head?_cons, Option.some_inj] at hc
    subst hc
    decide

theorem toDigits_all (n : ℕ) : (Nat.toDigits 10 n).all Char.isDigit = true := by
  rw [List.all_eq_true]
  exact fun c hc => Nat.isDigit_of_mem_toDigits (by decide) (by decide) hc

theorem decE_tail {E : List Char} {X : ℤ} (h : Tail E X) (i f : List Char) :
    decE i f E = some ((Nat.ofDigitChars 10 (i ++ f) 0 : ℚ) * 10 ^ (X - f.length)) := by
  cases h with
  | none => unfold decE; simp
  | expo =>
    have hk : ∀ n : ℕ, ∀ k, k = (if n < 10 then '0' :: Nat.toDigits 10 n else Nat.toDigits 10 n) →
        (k ≠ [] ∧ k.all Char.isDigit = true) ∧ Nat.ofDigitChars 10 k 0 = n := by
      intro n k hk
      subst hk
      split_ifs
      · refine ⟨⟨by simp, ?_⟩, ?_⟩
        · rw [List.all_cons, toDigits_all]; decide
        · rw [Nat.ofDigitChars_cons]
          exact Nat.ofDigitChars_ten_toDigits
      · exact ⟨⟨Nat.toDigits_ne_nil, toDigits_all _⟩, Nat.ofDigitChars_ten_toDigits⟩
    unfold Printf.expo
    obtain ⟨k, hkk⟩ : ∃ k, k = (if X.natAbs < 10 then '0' :: Nat.toDigits 10 X.natAbs else Nat.toDigits 10 X.natAbs) := ⟨_, rfl⟩
    rw [← hkk]
    obtain ⟨h1, h2⟩ := hk _ _ hkk
    by_cases hX : X < 0
    · rw [if_pos hX]
      show (if k ≠ [] ∧ k.all Char.isDigit then some _ else none) = _
      rw [if_pos h1, h2]
      congr 3
      omega
    · rw [if_neg hX]
      show (if k ≠ [] ∧ k.all Char.isDigit then some _ else none) = _
      rw [if_pos h1, h2]
      congr 3
      omega

theorem decU_text {i s E : List Char} {X : ℤ} (hi0 : i ≠ []) (hi : ∀ c ∈ i, c.isDigit = true) (hs : ∀ c ∈ s, c.isDigit = true) (hE : Tail E X) :
    decU (i ++ (frac s ++ E)) = some ((Nat.ofDigitChars 10 (i ++ s) 0 : ℚ) * 10 ^ (X - s.length)) := by
  have hval : ((Nat.ofDigitChars 10 (i ++ s) 0 : ℕ) : ℚ) * 10 ^ (X - s.length) =
      ((Nat.ofDigitChars 10 (i ++ strip s) 0 : ℕ) : ℚ) * 10 ^ (X - (strip s).length) := by
    have h10 : (10 : ℚ) ≠ 0 := by norm_num
    rw [sub_eq_add_neg, sub_eq_add_neg, zpow_add₀ h10, zpow_add₀ h10, mul_left_comm, strip_val, mul_left_comm]
  rw [hval]
  have hh : ∀ c, (frac s ++ E).head? = some c → c.isDigit = false := by
    intro c hc
    unfold frac at hc
    by_cases h : strip s = []
    · rw [if_pos h, List.nil_append] at hc
      exact (hE.head c hc).1
    · rw [if_neg h, List.cons_append, List.head?_cons, Option.some_inj] at hc
      subst hc
      decide
  obtain ⟨t1, t2⟩ := span_digits hi hh
  unfold decU
  rw [t1, t2, if_neg hi0]
  unfold frac
  by_cases h : strip s = []
  · rw [if_pos h, List.nil_append, h]
    have : decR i E = decE i [] E := by
      cases E with
      | nil => rfl
      | cons c t =>
        have hc := (hE.head c rfl).2
        unfold decR
        split
        · next r heq =>
          rw [List.cons.injEq] at heq
          exact absurd heq.1 hc
        · rfl
    rw [this, decE_tail hE]
  · rw [if_neg h]
    obtain ⟨u1, u2⟩ := span_digits (strip_digits hs) (fun c hc => (hE.head c hc).1)
    show decE i ((strip s ++ E).takeWhile Char.isDigit) ((strip s ++ E).dropWhile Char.isDigit) = _
    rw [u1, u2, decE_tail hE]

theorem digits_len {p m : ℕ} (hp : 1 ≤ p) (h1 : 10 ^ (p - 1) ≤ m) (h2 : m < 10 ^ p) : (Nat.toDigits 10 m).length = p := by
  have a := (Nat.length_toDigits_le_iff (b := 10) (n := m) (by norm_num) (show 0 < p by omega)).mpr h2
  by_contra hne
  have hlt : (Nat.toDigits 10 m).length ≤ p - 1 := by omega
  rcases Nat.eq_zero_or_pos (p - 1) with h | h
  · have := Nat.length_toDigits_pos (b := 10) (n := m)
    omega
  · exact absurd ((Nat.length_toDigits_le_iff (b := 10) (n := m) (by norm_num) h).mp hlt) (not_lt.mpr h1)

/-- the text reads as the digits -/
theorem decU_gpos {p : ℕ} {x : ℝ} (hp : 1 ≤ p) (hx : 0 < x) :
    decU (gpos p x) = some (((sig p x).1 : ℚ) * 10 ^ ((sig p x).2 - (p - 1))) := by
  obtain ⟨s1, s2, _⟩ := sig_val hp hx
  have hlen := digits_len hp s1 s2
  unfold gpos
  obtain ⟨m, hm⟩ : ∃ m, m = (sig p x).1 := ⟨_, rfl⟩
  obtain ⟨X, hX⟩ : ∃ X, X = (sig p x).2 := ⟨_, rfl⟩
  rw [← hm] at s1 s2 hlen ⊢
  rw [← hX]
  have hD : ∀ c ∈ Nat.toDigits 10 m, c.isDigit = true := fun c hc => Nat.isDigit_of_mem_toDigits (by decide) (by decide) hc
  have hv : Nat.ofDigitChars 10 (Nat.toDigits 10 m) 0 = m := Nat.ofDigitChars_ten_toDigits
  obtain ⟨D, hDD⟩ : ∃ D, D = Nat.toDigits 10 m := ⟨_, rfl⟩
  rw [← hDD] at hlen hD hv ⊢
  have ht : ∀ n, 1 ≤ n → D.take n ≠ [] := by
    intro n hn h
    have := congrArg List.length h
    rw [List.length_take, hlen, List.length_nil] at this
    omega
  by_cases hc : -4 ≤ X ∧ X < p
  · rw [if_pos hc]
    unfold fixed
    by_cases h0 : 0 ≤ X
    · rw [if_pos h0]
      have key := decU_text (i := D.take (X.toNat + 1)) (s := D.drop (X.toNat + 1)) (ht _ (by omega)) (fun c h => hD c (List.mem_of_mem_take h))
        (fun c h => hD c (List.mem_of_mem_drop h)) Tail.none
      rw [List.append_nil] at key
      rw [key, List.take_append_drop, hv, List.length_drop, hlen]
      congr 3
      omega
    · rw [if_neg h0]
      have key := decU_text (i := ['0']) (s := List.replicate (-X - 1).toNat '0' ++ D) (by simp) (by decide) (by
        intro c h
        rcases List.mem_append.mp h with h | h
        · rw [List.eq_of_mem_replicate h]; decide
        · exact hD c h) Tail.none
      rw [List.append_nil] at key
      rw [← List.singleton_append, key]
      have : Nat.ofDigitChars 10 (['0'] ++ (List.replicate (-X - 1).toNat '0' ++ D)) 0 = m := by
        rw [Nat.ofDigitChars_append, Nat.ofDigitChars_append, Nat.ofDigitChars_replicate_zero]
        show Nat.ofDigitChars 10 D (10 ^ (-X - 1).toNat * 0) = m
        rw [mul_zero, hv]
      rw [this, List.length_append, List.length_replicate, hlen]
      congr 3
      omega
  · rw [if_neg hc]
    unfold sci
    have key := decU_text (i := D.take 1) (s := D.drop 1) (ht _ (by omega)) (fun c h => hD c (List.mem_of_mem_take h))
        (fun c h => hD c (List.mem_of_mem_drop h)) (Tail.expo X)
    rw [List.append_assoc, key, List.take_append_drop, hv, List.length_drop, hlen]
    congr 3
    omega

/-- characters of a printed number -/
def numChar (c : Char) : Prop := c.isDigit = true ∨ c = '-' ∨ c = '+' ∨ c = '.' ∨ c = 'e'

theorem frac_chars {s : List Char} (hs : ∀ c ∈ s, c.isDigit = true) : ∀ c ∈ frac s, numChar c := by
  intro c hc
  unfold frac at hc
  split_ifs at hc
  · exact absurd hc List.not_mem_nil
  · rcases List.mem_cons.mp hc with h | h
    · exact Or.inr (Or.inr (Or.inr (Or.inl h)))
    · exact Or.inl (strip_digits hs c h)

theorem expo_chars (X : ℤ) : ∀ c ∈ expo X, numChar c := by
  intro c hc
  have hD : ∀ n, ∀ c ∈ Nat.toDigits 10 n, c.isDigit = true := fun n c hc => Nat.isDigit_of_mem_toDigits (by decide) (by decide) hc
  unfold expo at hc
  rcases List.mem_cons.mp hc with h | h
  · exact Or.inr (Or.inr (Or.inr (Or.inr h)))
  rcases List.mem_cons.mp h with h | h
  · split_ifs at h
    · exact Or.inr (Or.inl h)
    · exact Or.inr (Or.inr (Or.inl h))
  · split_ifs at h
    · rcases List.mem_cons.mp h with h | h
      · left; rw [h]; decide
      · exact Or.inl (hD _ c h)
    · exact Or.inl (hD _ c h)

theorem g_chars (p : ℕ) (x : ℝ) : ∀ c ∈ g p x, numChar c := by
  have hD : ∀ n, ∀ c ∈ Nat.toDigits 10 n, c.isDigit = true := fun n c hc => Nat.isDigit_of_mem_toDigits (by decide) (by decide) hc
  have hpos : ∀ x, ∀ c ∈ gpos p x, numChar c := by
    intro x c hc
    unfold gpos at hc
    split_ifs at hc
    · unfold fixed at hc
      split_ifs at hc
      · rcases List.mem_append.mp hc with h | h
        · exact Or.inl (hD _ c (List.mem_of_mem_take h))
        · exact frac_chars (fun c h => hD _ c (List.mem_of_mem_drop h)) c h
      · rcases List.mem_cons.mp hc with h | h
        · left; rw [h]; decide
        · refine frac_chars (fun c h => ?_) c h
          rcases List.mem_append.mp h with h | h
          · rw [List.eq_of_mem_replicate h]; decide
          · exact hD _ c h
    · unfold sci at hc
      rcases List.mem_append.mp hc with h | h
      · rcases List.mem_append.mp h with h | h
        · exact Or.inl (hD _ c (List.mem_of_mem_take h))
        · exact frac_chars (fun c h => hD _ c (List.mem_of_mem_drop h)) c h
      · exact expo_chars _ c h
  intro c hc
  unfold g at hc
  split_ifs at hc
  · left
    rw [List.mem_singleton.mp hc]
    decide
  · rcases List.mem_cons.mp hc with h | h
    · exact Or.inr (Or.inl h)
    · exact hpos _ c h
  · exact hpos _ c hc

/-- `x` rounded to `p` significant digits, either sign -/
noncomputable def roundS (p : ℕ) (x : ℝ) : ℝ := if x = 0 then 0 else if x < 0 then -round p (-x) else round p x

theorem decVal_cons {t : List Char} (h : ∀ c, t.head? = some c → c ≠ '-') : decVal t = decU t := by
  unfold decVal
  split
  · exact absurd rfl (h _ rfl)
  · rfl

theorem gpos_head {p : ℕ} {x : ℝ} (hp : 1 ≤ p) (hx : 0 < x) : ∀ c, (gpos p x).head? = some c → c ≠ '-' := by
  intro c hc he
  have hU := decU_gpos hp hx
  subst he
  cases hg : gpos p x with
  | nil => rw [hg] at hc; simp at hc
  | cons a t =>
    rw [hg, List.head?_cons, Option.some_inj] at hc
    subst hc
    rw [hg] at hU
    have : decU ('-' :: t) = none := by
      unfold decU
      rw [if_pos]
      rw [List.takeWhile_cons]
      rfl
    rw [this] at hU
    exact absurd hU (by simp)

/-- **the text reads as the rounded number** -/
theorem decVal_g {p : ℕ} (hp : 1 ≤ p) (x : ℝ) : ∃ v : ℚ, decVal (g p x) = some v ∧ (v : ℝ) = roundS p x := by
  have hcast : ∀ x : ℝ, 0 < x → ((((sig p x).1 : ℚ) * 10 ^ ((sig p x).2 - ((p : ℤ) - 1)) : ℚ) : ℝ) = round p x := by
    intro x hx
    rw [← (sig_val hp hx).2.2]
    push_cast
    rfl
  unfold g roundS
  rcases lt_trichotomy x 0 with h | h | h
  · rw [if_neg h.ne, if_pos h, if_neg h.ne, if_pos h]
    refine ⟨-(((sig p (-x)).1 : ℚ) * 10 ^ ((sig p (-x)).2 - ((p : ℤ) - 1))), ?_, ?_⟩
    · show (decU (gpos p (-x))).map Neg.neg = _
      rw [decU_gpos hp (by linarith)]
      rfl
    · rw [Rat.cast_neg, hcast (-x) (by linarith)]
  · rw [if_pos h, if_pos h]
    exact ⟨0, by decide +kernel, by norm_num⟩
  · rw [if_neg h.ne', if_neg (not_lt.mpr h.le), if_neg h.ne', if_neg (not_lt.mpr h.le)]
    refine ⟨_, ?_, hcast x h⟩
    rw [decVal_cons (gpos_head hp h), decU_gpos hp h]

end Printf
end SFK
