import Verif.Spec.Log
import Verif.Props.Printf
import Verif.Props.Launcher
/-
C118: the log.
-/
namespace SFK
open Scalar CR Printf

theorem wordsFrom_word : ∀ (w acc rest : List Char), (∀ c ∈ w, c ≠ ' ' ∧ c ≠ '\n') → wordsFrom acc (w ++ rest) = wordsFrom (w.reverse ++ acc) rest
  | [], _, _, _ => rfl
  | c :: w, acc, rest, h => by
    have hc := h c List.mem_cons_self
    rw [List.cons_append, wordsFrom, if_neg (by rintro (h | h); exacts [hc.1 h, hc.2 h]),
      wordsFrom_word w (c :: acc) rest (fun d hd => h d (List.mem_cons_of_mem _ hd))]
    simp

theorem words_blanks (n : ℕ) (rest : List Char) : words (List.replicate n ' ' ++ rest) = words rest := by
  induction n with
  | zero => rfl
  | succ n ih =>
    rw [List.replicate_succ, List.cons_append]
    exact ih

theorem words_cons {w : List Char} (hw : w ≠ []) (h : ∀ c ∈ w, c ≠ ' ' ∧ c ≠ '\n') {c : Char} (hc : c = ' ' ∨ c = '\n') (rest : List Char) :
    words (w ++ c :: rest) = w :: words rest := by
  unfold words
  rw [wordsFrom_word w [] _ h, List.append_nil, wordsFrom, if_pos hc, if_neg (by simpa using hw), List.reverse_reverse]

theorem words_setw {w : List Char} (hw : w ≠ []) (h : ∀ c ∈ w, c ≠ ' ' ∧ c ≠ '\n') (k : ℕ) {c : Char} (hc : c = ' ' ∨ c = '\n') (rest : List Char) :
    words (Log.setw k w ++ c :: rest) = w :: words rest := by
  unfold Log.setw
  rw [List.append_assoc, words_blanks, words_cons hw h hc]

theorem words_setw' {s : List Char} {k : ℕ} (h : s.length < k) : ∃ n, ∀ rest, Log.setw k s ++ rest = ' ' :: (List.replicate n ' ' ++ (s ++ rest)) := by
  refine ⟨k - s.length - 1, fun rest => ?_⟩
  unfold Log.setw
  rw [show k - s.length = (k - s.length - 1) + 1 by omega, List.replicate_succ]
  simp

namespace Printf

theorem strip_len (s : List Char) : (strip s).length ≤ s.length := by
  unfold strip
  rw [List.length_reverse]
  exact (List.dropWhile_sublist _).length_le.trans (by rw [List.length_reverse])

theorem frac_len (s : List Char) : (frac s).length ≤ s.length + 1 := by
  unfold frac
  split_ifs
  · simp
  · rw [List.length_cons]
    have := strip_len s
    omega

theorem g_ne (p : ℕ) (hp : 1 ≤ p) (x : ℝ) : g p x ≠ [] := by
  intro h
  obtain ⟨v, h1, _⟩ := decVal_g hp x
  rw [h] at h1
  exact absurd h1 (by rw [show decVal [] = none by decide]; simp)

theorem g_noblank (p : ℕ) (x : ℝ) : ∀ c ∈ g p x, c ≠ ' ' ∧ c ≠ '\n' := by
  intro c hc
  have := g_chars p x c hc
  constructor <;>
  · intro h
    rw [h] at this
    revert this
    unfold numChar
    decide

/-- a number printed with six digits has at most 13 characters, if its exponent has at most three digits -/
theorem gpos_len {x : ℝ} (hx : 0 < x) (h1 : (10 : ℝ) ^ (-900 : ℤ) ≤ x) (h2 : x < (10 : ℝ) ^ (900 : ℤ)) : (gpos 6 x).length ≤ 12 := by
  have l1 : -900 ≤ Int.log 10 x := (Int.zpow_le_iff_le_log (b := 10) (by norm_num) hx).mp (by push_cast; exact h1)
  have l2 : Int.log 10 x < 900 := (Int.lt_zpow_iff_log_lt (b := 10) (by norm_num) hx).mp (by push_cast; exact h2)
  have hX : -900 ≤ (sig 6 x).2 ∧ (sig 6 x).2 ≤ 900 := by
    unfold sig
    split_ifs
    · constructor <;> dsimp only <;> omega
    · constructor <;> dsimp only <;> omega
  obtain ⟨s1, s2, _⟩ := sig_val (p := 6) (by norm_num) hx
  have hD := digits_len (p := 6) (by norm_num) s1 s2

  have hE : (Nat.toDigits 10 (sig 6 x).2.natAbs).length ≤ 3 :=
    (Nat.length_toDigits_le_iff (b := 10) (by norm_num) (by norm_num)).mpr (by omega)
  unfold gpos
  obtain ⟨D, eD⟩ : ∃ D, D = Nat.toDigits 10 (sig 6 x).1 := ⟨_, rfl⟩
  obtain ⟨X, eX⟩ : ∃ X, X = (sig 6 x).2 := ⟨_, rfl⟩
  rw [← eD] at hD ⊢
  rw [← eX] at hX hE ⊢
  split_ifs with hc
  · unfold fixed
    split_ifs
    · rw [List.length_append, List.length_take]
      have := frac_len (D.drop (X.toNat + 1))
      rw [List.length_drop] at this
      omega
    · rw [List.length_cons]
      have := frac_len (List.replicate (-X - 1).toNat '0' ++ D)
      rw [List.length_append, List.length_replicate] at this
      have : (-X - 1).toNat ≤ 3 := by omega
      omega
  · unfold sci expo
    rw [List.length_append, List.length_append, List.length_take, List.length_cons, List.length_cons]
    have := frac_len (D.drop 1)
    rw [List.length_drop] at this
    have : (if X.natAbs < 10 then '0' :: Nat.toDigits 10 X.natAbs else Nat.toDigits 10 X.natAbs).length ≤ 3 := by
      split_ifs with h
      · rw [List.length_cons]
        have := (Nat.length_toDigits_le_iff (b := 10) (n := X.natAbs) (k := 1) (by norm_num) (by norm_num)).mpr (by omega)
        omega
      · exact hE
    omega

theorem pow_2_10 {n : ℕ} (h : n < 2700) : (2 : ℝ) ^ n < 10 ^ 900 :=
  calc (2 : ℝ) ^ n < 2 ^ 2700 := pow_lt_pow_right₀ (by norm_num) h
    _ = (2 ^ 3) ^ 900 := by rw [← pow_mul]
    _ ≤ 10 ^ 900 := pow_le_pow_left₀ (by norm_num) (by norm_num) _

/-- a finite `double` -/
theorem double_range {x : ℝ} (h : IsDouble x) (h0 : x ≠ 0) (h1 : |x| < 2 ^ 1024) : (10 : ℝ) ^ (-900 : ℤ) ≤ |x| ∧ |x| < (10 : ℝ) ^ (900 : ℤ) := by
  constructor
  · obtain ⟨m, k, _, hk, rfl⟩ := h
    have hm : m ≠ 0 := by
      rintro rfl
      simp at h0
    have hm1 : (1 : ℝ) ≤ |(m : ℝ)| := by
      have := Int.one_le_abs hm
      exact_mod_cast this
    have hk2 : (2 : ℝ) ^ (-1074 : ℤ) ≤ (2 : ℝ) ^ k := zpow_le_zpow_right₀ (by norm_num) hk
    have h3 : (10 : ℝ) ^ (-900 : ℤ) ≤ (2 : ℝ) ^ (-1074 : ℤ) := by
      rw [zpow_neg, zpow_neg]
      exact inv_anti₀ (by positivity) (pow_2_10 (n := 1074) (by norm_num)).le
    rw [abs_mul, abs_of_pos (show (0 : ℝ) < 2 ^ k by positivity)]
    calc (10 : ℝ) ^ (-900 : ℤ) ≤ 1 * (2 : ℝ) ^ k := by rw [one_mul]; exact h3.trans hk2
      _ ≤ _ := mul_le_mul_of_nonneg_right hm1 (by positivity)
  · exact h1.trans (pow_2_10 (n := 1024) (by norm_num))

theorem g_len {x : ℝ} (h : IsDouble x) (h1 : |x| < 2 ^ 1024) : (g 6 x).length < 16 := by
  unfold g
  split_ifs with h0 hn
  · simp
  · obtain ⟨a, b⟩ := double_range h h0 h1
    rw [abs_of_neg hn] at a b
    have := gpos_len (by linarith) a b
    rw [List.length_cons]
    omega
  · obtain ⟨a, b⟩ := double_range h h0 h1
    have hp : 0 < x := lt_of_le_of_ne (not_lt.mp hn) (Ne.symm h0)
    rw [abs_of_pos hp] at a b
    have := gpos_len hp a b
    omega

end Printf

theorem read6 (x : ℝ) : ∃ a : ℚ, decVal (g 6 x) = some a ∧ |(a : ℝ) - x| ≤ 5 / 10 ^ 6 * |x| := by
  obtain ⟨v, h1, h2⟩ := decVal_g (p := 6) (by norm_num) x
  refine ⟨v, h1, ?_⟩
  rw [h2]
  refine (roundS_err 6 x).trans (mul_le_mul_of_nonneg_right ?_ (abs_nonneg _))
  norm_num [zpow_neg]

/-- the first word of a line is the time, whatever the other numbers are -/
theorem line_time (nan : List Char) (t : ℝ) (r v : CR) : ∃ rest, words (Log.line (Log.fmt nan) (fin t) r v) = g 6 t :: rest := by
  obtain ⟨n, hn⟩ := words_setw' (s := "Grid ".toList) (k := 16) (by decide)
  unfold Log.line
  rw [List.append_assoc, List.append_assoc, List.append_assoc, List.append_assoc, hn]
  exact ⟨_, words_setw (g_ne 6 (by norm_num) t) (g_noblank 6 t) 16 (Or.inl rfl) _⟩

/-- C118: a line of the log has five words: the time, `Grid`, `0`, the residual and the total variation; the numbers read as what they were up to half a
unit of the sixth digit.  (For finite values of the type `double`; of the time only finiteness matters.) -/
theorem C118_line (nan : List Char) {t r v : ℝ} (hr : IsDouble r) (hv : IsDouble v) (hr1 : |r| < 2 ^ 1024)
    (hv1 : |v| < 2 ^ 1024) : ∃ a b c, words (Log.line (Log.fmt nan) (fin t) (fin r) (fin v)) = [a, "Grid".toList, "0".toList, b, c] ∧
      ∃ x y z : ℚ, decVal a = some x ∧ decVal b = some y ∧ decVal c = some z ∧ |(x : ℝ) - t| ≤ 5 / 10 ^ 6 * |t| ∧ |(y : ℝ) - r| ≤ 5 / 10 ^ 6 * |r| ∧
        |(z : ℝ) - v| ≤ 5 / 10 ^ 6 * |v| := by
  obtain ⟨x, x1, x2⟩ := read6 t
  obtain ⟨y, y1, y2⟩ := read6 r
  obtain ⟨z, z1, z2⟩ := read6 v
  refine ⟨g 6 t, g 6 r, g 6 v, ?_, x, y, z, x1, y1, z1, x2, y2, z2⟩
  obtain ⟨n1, h1⟩ := words_setw' (s := "Grid ".toList) (k := 16) (by decide)
  obtain ⟨n2, h2⟩ := words_setw' (s := g 6 r) (k := 16) (g_len hr hr1)
  obtain ⟨n3, h3⟩ := words_setw' (s := g 6 v) (k := 16) (g_len hv hv1)
  show words (Log.setw 16 (g 6 t) ++ Log.setw 16 "Grid ".toList ++ "0".toList ++ Log.setw 16 (g 6 r) ++ Log.setw 16 (g 6 v) ++ "\n".toList) = _
  rw [List.append_assoc, List.append_assoc, List.append_assoc, List.append_assoc, h1, h2, h3]
  rw [words_setw (g_ne 6 (by norm_num) t) (g_noblank 6 t) 16 (Or.inl rfl), words_blanks]
  show _ :: words ("Grid".toList ++ ' ' :: ("0".toList ++ _)) = _
  rw [words_cons (by decide) (by decide) (Or.inl rfl), words_cons (by decide) (by decide) (Or.inl rfl), words_blanks]
  rw [words_cons (g_ne 6 (by norm_num) r) (g_noblank 6 r) (Or.inl rfl), words_blanks]
  show _ :: _ :: _ :: _ :: words (g 6 v ++ '\n' :: []) = _
  rw [words_cons (g_ne 6 (by norm_num) v) (g_noblank 6 v) (Or.inr rfl)]
  rfl

variable {E : Env CR} {P : ParamRec CR}

/-- the lines of a run -/
theorem log_run (hV : Valid E P) (hts : 1 ≤ P.t_step_save) {d : ℝ} (hd : P.dt = fin d) (io : IOEnv CR) (J : Junk (Cx CR)) (dir nan : List Char) :
    (logLines nan (Main.run E io J dir P).events).length = (P.nt - 1) / P.t_step_save + 1 ∧
    ∀ k, k < (P.nt - 1) / P.t_step_save + 1 → ∃ s r v, (logLines nan (Main.run E io J dir P).events)[k]? = some s ∧
      s = Log.line (Log.fmt nan) (fin (d * (k * P.t_step_save : ℕ))) r v := by
  obtain ⟨g, hS, F, Q, A, B, hH, D, tF, tD, res, tv, hD⟩ := C69_history_exists hV io (stepMem J) (saveMem J)
  have hl := C63_printed_lines hV hS J hH hD hts dir
  unfold logLines
  rw [hl, List.map_map]
  refine ⟨by simp, fun k hk => ⟨_, res (k * P.t_step_save), tv (k * P.t_step_save), ?_, rfl⟩⟩
  rw [List.getElem?_map, List.getElem?_range hk]
  show some _ = some _
  congr 1
  show Log.line (Log.fmt nan) (if k = 0 then lit 0 else P.dt * dbl (k * P.t_step_save)) _ _ = _
  congr 1
  split_ifs with h0
  · rw [h0, fin_lit]
    simp
  · rw [hd, fin_dbl, fin_mul]

/-- C118: the times of the log.  Line `k` of a run shows the time of the state it describes up to half a unit of the sixth digit; the times never decrease
along the log, and they increase strictly over the first 100000 lines. -/
theorem C118_times_in_order_partial (hV : Valid E P) (hts : 1 ≤ P.t_step_save) {d : ℝ} (hd : P.dt = fin d) (hd0 : 0 < d) (io : IOEnv CR) (J : Junk (Cx CR))
    (dir nan : List Char) :
    (logLines nan (Main.run E io J dir P).events).length = (P.nt - 1) / P.t_step_save + 1 ∧
    ∃ T : ℕ → ℚ, (∀ k, k < (P.nt - 1) / P.t_step_save + 1 →
        (logLines nan (Main.run E io J dir P).events)[k]?.bind logTime = some (T k) ∧
        |(T k : ℝ) - d * (k * P.t_step_save : ℕ)| ≤ 5 / 10 ^ 6 * (d * (k * P.t_step_save : ℕ))) ∧
      ∀ i j, i < j → T i ≤ T j ∧ (j < 100000 → T i < T j) := by
  obtain ⟨h1, h2⟩ := log_run hV hts hd io J dir nan
  refine ⟨h1, ?_⟩
  have hT : ∀ k : ℕ, ∃ a : ℚ, decVal (g 6 (d * (k * P.t_step_save : ℕ))) = some a ∧ (a : ℝ) = roundS 6 (d * (k * P.t_step_save : ℕ)) :=
    fun k => decVal_g (p := 6) (by norm_num) _
  choose T hT1 hT2 using hT
  have hpos : ∀ k : ℕ, 0 ≤ d * (k * P.t_step_save : ℕ) := fun k => by positivity
  have herr : ∀ k : ℕ, |(T k : ℝ) - d * (k * P.t_step_save : ℕ)| ≤ 5 / 10 ^ 6 * (d * (k * P.t_step_save : ℕ)) := by
    intro k
    obtain ⟨a, a1, a2⟩ := read6 (d * (k * P.t_step_save : ℕ))
    rw [hT1 k] at a1
    rw [← Option.some_inj.mp a1, abs_of_nonneg (hpos k)] at a2
    exact a2
  refine ⟨T, fun k hk => ⟨?_, herr k⟩, fun i j hij => ⟨?_, fun hj => ?_⟩⟩
  · obtain ⟨s, r, v, e1, e2⟩ := h2 k hk
    rw [e1]
    show logTime s = _
    obtain ⟨rest, e3⟩ := line_time nan (d * (k * P.t_step_save : ℕ)) r v
    unfold logTime
    rw [e2, e3]
    exact hT1 k
  · have : (T i : ℝ) ≤ T j := by
      rw [hT2, hT2]
      refine roundS_mono (by norm_num) (mul_le_mul_of_nonneg_left ?_ hd0.le)
      exact_mod_cast Nat.mul_le_mul_right _ hij.le
    exact_mod_cast this
  · obtain ⟨s, hs⟩ : ∃ s : ℝ, s = d * P.t_step_save := ⟨_, rfl⟩
    have hs0 : 0 < s := by
      rw [hs]
      have : (1 : ℝ) ≤ P.t_step_save := by exact_mod_cast hts
      positivity
    have hk : ∀ k : ℕ, d * (k * P.t_step_save : ℕ) = s * k := fun k => by rw [hs]; push_cast; ring
    have ei := (abs_le.mp (herr i)).2
    have ej := (abs_le.mp (herr j)).1
    rw [hk] at ei ej
    have hi1 : (i : ℝ) + 1 ≤ j := by exact_mod_cast hij
    have hj1 : (j : ℝ) + 1 ≤ 100000 := by exact_mod_cast hj
    have : (T i : ℝ) < T j := by nlinarith
    exact_mod_cast this

/-- numbers that six digits show as 1000 -/
theorem thousand {x : ℝ} (h1 : 1000 ≤ x) (h2 : x ≤ 1000 + 1 / 1000) : g 6 x = g 6 1000 := by
  have key : ∀ x : ℝ, 1000 ≤ x → x ≤ 1000 + 1 / 1000 → sig 6 x = (100000, 3) := by
    intro x h1 h2
    have hx : 0 < x := by linarith
    have hlog : Int.log 10 x = 3 := by
      apply le_antisymm
      · have := (Int.lt_zpow_iff_log_lt (b := 10) (by norm_num) (x := 4) hx).mp (by norm_num; linarith)
        omega
      · exact (Int.zpow_le_iff_le_log (b := 10) (by norm_num) hx).mp (by norm_num; linarith)
    have e : (10 : ℝ) ^ ((3 : ℤ) - (((6 : ℕ) : ℤ) - 1)) = 1 / 100 := by norm_num [zpow_neg]
    have hf : ⌊x / (1 / 100 : ℝ)⌋₊ = 100000 := by
      rw [Nat.floor_eq_iff (by positivity)]
      constructor <;> norm_num <;> linarith
    have hr : rne (x / (1 / 100 : ℝ)) = 100000 := by
      unfold rne
      rw [hf, if_pos (by norm_num; linarith)]
    unfold sig
    rw [hlog, e, hr]
    norm_num
  have hx : 0 < x := by linarith
  unfold g
  rw [if_neg hx.ne', if_neg (not_lt.mpr hx.le), if_neg (by norm_num), if_neg (by norm_num)]
  unfold gpos
  rw [key x h1 h2, key 1000 (le_refl _) (by norm_num)]

/-- The template's physics on a 33×8×16 grid, with time step 1/1000, evolved to the time 2000 and saved after every step. -/
noncomputable def oftenS : Launcher.Settings ℝ :=
  { templateS with nx := 33, nl := 7, nm := 7, nlat := 8, nphi := 16, cfl := 4 / 125, evolve_time := 2000, num_saved_times := 2000000 }

theorem often_sensible : oftenS.Sensible :=
  ⟨template_sensible.mass, template_sensible.spin, template_sensible.noRound, template_sensible.cl, by simp [oftenS], by simp [oftenS], by decide, by decide⟩

theorem often_step : oftenS.step = 1 / 1000 := by
  unfold Launcher.Settings.step oftenS templateS
  norm_num

theorem often_run : (paramsOf oftenS).nt = 2000000 ∧ (paramsOf oftenS).t_step_save = 1 ∧ ∃ E : Env CR, Valid E (paramsOf oftenS) := by
  have hn : (paramsOf oftenS).nt = 2000000 := by
    rw [often_sensible.nt, often_step]
    unfold oftenS templateS
    norm_num
  refine ⟨hn, ?_, ?_⟩
  · show Launcher.tStepSave (paramsOf oftenS).nt 2000000 = 1
    rw [hn]
    rfl
  · obtain ⟨E, x, A, g, e, _, _, h3, h4, hS, _⟩ := demo_setup true false false
    exact ⟨E, hS.sized, hS.sizes, le_refl 0, le_refl 0, by decide, by decide, by rw [hn]; norm_num⟩

/-- C118 (negation of the rest): beyond 100000 lines different times may look the same.  Sensible settings, admissible on a grid the libraries serve, whose log
shows the time 1000 both for the state at 1000 and for the next saved one, at 1000.001. -/
theorem C118_times_indistinguishable : ∃ (S : Launcher.Settings ℝ) (E : Env CR), S.Sensible ∧ Valid E (paramsOf S) ∧ ∀ (io : IOEnv CR) (J : Junk (Cx CR))
    (dir nan : List Char), ∃ s s' r r' v v', (logLines nan (Main.run E io J dir (paramsOf S)).events)[1000000]? = some s ∧
      (logLines nan (Main.run E io J dir (paramsOf S)).events)[1000001]? = some s' ∧ s = Log.line (Log.fmt nan) (fin 1000) r v ∧
      s' = Log.line (Log.fmt nan) (fin (1000 + 1 / 1000)) r' v' ∧ logTime s = logTime s' ∧ logTime s ≠ none := by
  obtain ⟨h1, h2, E, hV⟩ := often_run
  refine ⟨oftenS, E, often_sensible, hV, fun io J dir nan => ?_⟩
  obtain ⟨_, h3⟩ := log_run hV (by rw [h2]) (often_sensible.dt) io J dir nan
  rw [h1, h2, often_step] at h3
  obtain ⟨s, r, v, a1, a2⟩ := h3 1000000 (by norm_num)
  obtain ⟨s', r', v', b1, b2⟩ := h3 1000001 (by norm_num)
  norm_num at a2 b2
  refine ⟨s, s', r, r', v, v', a1, b1, a2, ?_, ?_, ?_⟩
  · rw [b2]
    norm_num
  · obtain ⟨_, e1⟩ := line_time nan 1000 r v
    obtain ⟨_, e2⟩ := line_time nan (1000001 / 1000) r' v'
    unfold logTime
    rw [a2, b2, e1, e2, thousand (x := 1000001 / 1000) (by norm_num) (by norm_num)]
    rfl
  · obtain ⟨_, e1⟩ := line_time nan 1000 r v
    obtain ⟨a, e2, _⟩ := read6 1000
    unfold logTime
    rw [a2, e1]
    show decVal (g 6 1000) ≠ none
    rw [e2]
    simp

/-- Non-vacuity of C118_line: zero, a fraction and a negative number; of C118_times_in_order_partial: the run above. -/
example : (IsDouble 0 ∧ IsDouble (3 / 4) ∧ IsDouble (-5)) ∧ (∃ E : Env CR, Valid E (paramsOf oftenS)) ∧ 1 ≤ (paramsOf oftenS).t_step_save ∧
    (paramsOf oftenS).dt = fin (1 / 1000) := by
  refine ⟨⟨⟨0, 0, by norm_num, by norm_num, by norm_num⟩, ⟨3, -2, by norm_num, by norm_num, by norm_num⟩, ⟨-5, 0, by norm_num, by norm_num, by norm_num⟩⟩,
    often_run.2.2, by rw [often_run.2.1], ?_⟩
  rw [often_sensible.dt, often_step]

end SFK
