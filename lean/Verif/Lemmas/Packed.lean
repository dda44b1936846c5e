import Verif.Lemmas.Sphere
import Verif.Lemmas.CR
/-
Addresses of the coefficients of a complex field (`pidx`): bounds, injectivity, surjectivity; `raise` and `lower` on them.
-/
namespace SFK
open Scalar CR

/-- first place of degree `l` -/
def prow (M : ℕ) : ℕ → ℕ
  | 0 => 0
  | l + 1 => prow M l + (2 * min l M + 1)

theorem prow_low {M l : ℕ} (h : l ≤ M + 1) : prow M l = l * l := by
  induction l with
  | zero => rfl
  | succ l ih => rw [prow, ih (by omega), Nat.min_eq_left (by omega)]; ring

theorem prow_high (M d : ℕ) : prow M (M + 1 + d) = (M + 1) * (M + 1) + d * (2 * M + 1) := by
  induction d with
  | zero => rw [Nat.add_zero, prow_low (Nat.le_refl _)]; ring
  | succ d ih => rw [← Nat.add_assoc, prow, ih, Nat.min_eq_right (by omega)]; ring

theorem prow_le_sq (M l : ℕ) : prow M l ≤ l * l := by
  induction l with
  | zero => exact Nat.le_refl _
  | succ l ih => rw [prow]; have := Nat.min_le_left l M; nlinarith

theorem prow_mono {M a b : ℕ} (h : a ≤ b) : prow M a ≤ prow M b := by
  induction b with
  | zero => rw [Nat.le_zero.mp h]
  | succ b ih =>
    by_cases hb : a = b + 1
    · rw [hb]
    · exact (ih (by omega)).trans (by rw [prow]; omega)

theorem pidx_row (M l : ℕ) (m : ℤ) : pidx M l m = (prow M l : ℤ) + (m + (min l M : ℕ)) := by
  unfold pidx
  by_cases h : l ≤ M
  · rw [if_pos h, prow_low (by omega), Nat.min_eq_left h]; push_cast; ring
  · rw [if_neg h, Nat.min_eq_right (by omega)]
    obtain ⟨d, rfl⟩ : ∃ d, l = M + 1 + d := ⟨l - (M + 1), by omega⟩
    rw [prow_high]; push_cast; ring

/-- place of `(l,m)`, `m=j-min(l,M)` -/
theorem pidx_toNat (M l j : ℕ) : (pidx M l ((j : ℤ) - (min l M : ℕ))).toNat = prow M l + j := by
  rw [pidx_row]; omega

variable {α : Type}

namespace Shtns
variable {s : Shtns α}

theorem ncp_prow (h : s.mmax ≤ s.lmax) : s.ncp = prow s.mmax (s.lmax + 1) := by
  obtain ⟨d, hd⟩ := Nat.exists_eq_add_of_le h
  unfold ncp
  rw [hd, Nat.add_sub_cancel_left, show s.mmax + d + 1 = s.mmax + 1 + d by ring, prow_high]; ring

/-- the position within the degree -/
theorem ResC.pos {l : ℕ} {m : ℤ} (h : s.ResC l m) : ∃ j : ℕ, j ≤ 2 * min l s.mmax ∧ m = (j : ℤ) - (min l s.mmax : ℕ) := by
  obtain ⟨_, h2, h3⟩ := h
  rw [abs_le] at h2 h3
  exact ⟨(m + (min l s.mmax : ℕ)).toNat, by omega, by omega⟩

theorem ResC.of_pos {l j : ℕ} (hl : l ≤ s.lmax) (hj : j ≤ 2 * min l s.mmax) : s.ResC l ((j : ℤ) - (min l s.mmax : ℕ)) :=
  ⟨hl, by rw [abs_le]; omega, by rw [abs_le]; omega⟩

theorem ResC.lt (hm : s.mmax ≤ s.lmax) {l : ℕ} {m : ℤ} (h : s.ResC l m) : (pidx s.mmax l m).toNat < s.ncp := by
  obtain ⟨j, hj, rfl⟩ := h.pos
  rw [pidx_toNat, ncp_prow hm]
  have h1 : prow s.mmax (l + 1) ≤ prow s.mmax (s.lmax + 1) := prow_mono (by have := h.1; omega)
  rw [prow] at h1
  omega

theorem pidx_inj {l l' : ℕ} {m m' : ℤ} (h : s.ResC l m) (h' : s.ResC l' m') (he : (pidx s.mmax l m).toNat = (pidx s.mmax l' m').toNat) :
    l = l' ∧ m = m' := by
  obtain ⟨j, hj, rfl⟩ := h.pos
  obtain ⟨j', hj', rfl⟩ := h'.pos
  rw [pidx_toNat, pidx_toNat] at he
  have key : ∀ {a b x y : ℕ}, a < b → x ≤ 2 * min a s.mmax → prow s.mmax a + x = prow s.mmax b + y → False := by
    intro a b x y hab hx he
    have : prow s.mmax (a + 1) ≤ prow s.mmax b := prow_mono hab
    rw [prow] at this
    omega
  rcases Nat.lt_trichotomy l l' with hlt | heq | hgt
  · exact (key hlt hj he).elim
  · subst heq; exact ⟨rfl, by omega⟩
  · exact (key hgt hj' he.symm).elim

theorem pidx_surj (hm : s.mmax ≤ s.lmax) {k : ℕ} (hk : k < s.ncp) : ∃ l m, s.ResC l m ∧ (pidx s.mmax l m).toNat = k := by
  rw [ncp_prow hm] at hk
  have key : ∀ L, k < prow s.mmax L → ∃ l, l < L ∧ prow s.mmax l ≤ k ∧ k < prow s.mmax (l + 1) := by
    intro L
    induction L with
    | zero => intro hk; simp [prow] at hk
    | succ L ih =>
      intro hk
      by_cases hc : k < prow s.mmax L
      · obtain ⟨l, h1, h2⟩ := ih hc
        exact ⟨l, by omega, h2⟩
      · exact ⟨L, by omega, by omega, hk⟩
  obtain ⟨l, h1, h2, h3⟩ := key _ hk
  rw [prow] at h3
  refine ⟨l, ((k - prow s.mmax l : ℕ) : ℤ) - (min l s.mmax : ℕ), ResC.of_pos (by omega) (by omega), ?_⟩
  rw [pidx_toNat]; omega

open Classical in
/-- `(l,m)` of a place -/
noncomputable def lmOfC (s : Shtns α) (k : ℕ) : ℕ × ℤ :=
  if h : ∃ lm : ℕ × ℤ, s.ResC lm.1 lm.2 ∧ (pidx s.mmax lm.1 lm.2).toNat = k then choose h else (0, 0)

theorem lmOfC_pidx {l : ℕ} {m : ℤ} (hr : s.ResC l m) : s.lmOfC (pidx s.mmax l m).toNat = (l, m) := by
  have h : ∃ lm : ℕ × ℤ, s.ResC lm.1 lm.2 ∧ (pidx s.mmax lm.1 lm.2).toNat = (pidx s.mmax l m).toNat := ⟨(l, m), hr, rfl⟩
  unfold lmOfC
  rw [dif_pos h]
  have h2 := Classical.choose_spec h
  have h3 := pidx_inj h2.1 hr h2.2
  exact Prod.ext h3.1 h3.2

/-- array with given coefficients -/
noncomputable def mkC (s : Shtns α) (F : ℕ → ℤ → Cx α) : List (Cx α) := tab s.ncp fun k => F (s.lmOfC k).1 (s.lmOfC k).2

@[simp] theorem mkC_length (F : ℕ → ℤ → Cx α) : (s.mkC F).length = s.ncp := by simp [mkC]

theorem cfC_mkC [Inhabited α] (hm : s.mmax ≤ s.lmax) {F : ℕ → ℤ → Cx α} {l : ℕ} {m : ℤ} (hr : s.ResC l m) : s.cfC (s.mkC F) l m = F l m := by
  unfold cfC mkC
  rw [gv_tab (hr.lt hm), lmOfC_pidx hr]

theorem cfC_ext [Inhabited α] (hm : s.mmax ≤ s.lmax) {q q' : List (Cx α)} (hq : q.length = s.ncp) (hq' : q'.length = s.ncp)
    (he : ∀ l m, s.ResC l m → s.cfC q l m = s.cfC q' l m) : q = q' := by
  apply list_ext_gv (by rw [hq, hq'])
  intro k hk
  rw [hq] at hk
  obtain ⟨l, m, hr, rfl⟩ := pidx_surj hm hk
  exact he l m hr

end Shtns

theorem Shtns.Api.mmax_le {s : Shtns α} {lmax mmax nlat nphi : ℕ} (h : s.Api lmax mmax nlat nphi) : s.mmax ≤ s.lmax := by
  rw [h.mmax_eq, h.lmax_eq]; exact h.m_le

/-! ### `raise` and `lower` -/

/-- the mode stored one place before `(l,m)` -/
def prevC (M : ℕ) (l : ℕ) (m : ℤ) : ℕ × ℤ := if m = -((min l M : ℕ) : ℤ) then (l - 1, ((min (l - 1) M : ℕ) : ℤ)) else (l, m - 1)
/-- the mode stored one place after `(l,m)` -/
def nextC (M : ℕ) (l : ℕ) (m : ℤ) : ℕ × ℤ := if m = ((min l M : ℕ) : ℤ) then (l + 1, -((min (l + 1) M : ℕ) : ℤ)) else (l, m + 1)

theorem prevC_spec {s : Shtns α} {l : ℕ} {m : ℤ} (hr : s.ResC l m) (h0 : (pidx s.mmax l m).toNat ≠ 0) :
    s.ResC (prevC s.mmax l m).1 (prevC s.mmax l m).2 ∧
      (pidx s.mmax (prevC s.mmax l m).1 (prevC s.mmax l m).2).toNat = (pidx s.mmax l m).toNat - 1 := by
  obtain ⟨j, hj, rfl⟩ := hr.pos
  rw [pidx_toNat] at h0 ⊢
  unfold prevC
  by_cases hj0 : j = 0
  · subst hj0
    rw [if_pos (by simp)]
    have hl : l ≠ 0 := by rintro rfl; exact h0 rfl
    obtain ⟨k, rfl⟩ : ∃ k, l = k + 1 := ⟨l - 1, by omega⟩
    simp only [Nat.add_sub_cancel]
    have e : ((min k s.mmax : ℕ) : ℤ) = ((2 * min k s.mmax : ℕ) : ℤ) - (min k s.mmax : ℕ) := by push_cast; ring
    rw [e]
    refine ⟨Shtns.ResC.of_pos (by have := hr.1; omega) (Nat.le_refl _), ?_⟩
    rw [pidx_toNat, prow]; omega
  · rw [if_neg (by omega)]
    have e : ((j : ℤ) - (min l s.mmax : ℕ)) - 1 = ((j - 1 : ℕ) : ℤ) - (min l s.mmax : ℕ) := by omega
    simp only [e]
    refine ⟨Shtns.ResC.of_pos hr.1 (by omega), ?_⟩
    rw [pidx_toNat]; omega

theorem nextC_spec {s : Shtns α} (hm : s.mmax ≤ s.lmax) {l : ℕ} {m : ℤ} (hr : s.ResC l m) (h0 : (pidx s.mmax l m).toNat + 1 < s.ncp) :
    s.ResC (nextC s.mmax l m).1 (nextC s.mmax l m).2 ∧
      (pidx s.mmax (nextC s.mmax l m).1 (nextC s.mmax l m).2).toNat = (pidx s.mmax l m).toNat + 1 := by
  obtain ⟨j, hj, rfl⟩ := hr.pos
  rw [pidx_toNat, Shtns.ncp_prow hm] at h0
  rw [pidx_toNat]
  unfold nextC
  by_cases hj0 : j = 2 * min l s.mmax
  · subst hj0
    rw [if_pos (by push_cast; ring)]
    have hl : l < s.lmax := by
      by_contra hc
      have : l = s.lmax := by have := hr.1; omega
      rw [this, prow] at h0
      omega
    simp only []
    have e : -((min (l + 1) s.mmax : ℕ) : ℤ) = ((0 : ℕ) : ℤ) - (min (l + 1) s.mmax : ℕ) := by simp
    rw [e]
    refine ⟨Shtns.ResC.of_pos (by omega) (Nat.zero_le _), ?_⟩
    rw [pidx_toNat, prow]; omega
  · rw [if_neg (by omega)]
    have e : ((j : ℤ) - (min l s.mmax : ℕ)) + 1 = ((j + 1 : ℕ) : ℤ) - (min l s.mmax : ℕ) := by omega
    simp only [e]
    refine ⟨Shtns.ResC.of_pos hr.1 (by omega), ?_⟩
    rw [pidx_toNat]; omega

/-- `raise` on coefficients: the loop takes place `k<lmax^2` for order `k-b^2-b` of degree `b=⌊√k⌋`, whatever mode is stored there -/
noncomputable def raisedG (L M : ℕ) (c : ℕ → ℤ → ℂ) (l : ℕ) (m : ℤ) : ℂ :=
  if (pidx M l m).toNat.sqrt < L then
    if (pidx M l m).toNat = (pidx M l m).toNat.sqrt * (pidx M l m).toNat.sqrt then 0
    else (Real.sqrt ((2 * (pidx M l m).toNat.sqrt + 1 - ((pidx M l m).toNat - (pidx M l m).toNat.sqrt * (pidx M l m).toNat.sqrt))
      * ((pidx M l m).toNat - (pidx M l m).toNat.sqrt * (pidx M l m).toNat.sqrt)) : ℝ) * c (prevC M l m).1 (prevC M l m).2
  else c l m

/-- `lower` on coefficients -/
noncomputable def loweredG (L M : ℕ) (c : ℕ → ℤ → ℂ) (l : ℕ) (m : ℤ) : ℂ :=
  if (pidx M l m).toNat.sqrt < L then
    if (pidx M l m).toNat = (pidx M l m).toNat.sqrt * (pidx M l m).toNat.sqrt + 2 * (pidx M l m).toNat.sqrt then 0
    else (Real.sqrt ((((pidx M l m).toNat - (pidx M l m).toNat.sqrt * (pidx M l m).toNat.sqrt) + 1)
      * (2 * (pidx M l m).toNat.sqrt - ((pidx M l m).toNat - (pidx M l m).toNat.sqrt * (pidx M l m).toNat.sqrt))) : ℝ)
      * c (nextC M l m).1 (nextC M l m).2
  else c l m

theorem smul_rc {l j : ℕ} (hj : j ≤ 2 * l) (z : ℂ) :
    Cx.smul' (Sphere.rc l j) (toCx z) = toCx ((Real.sqrt ((2 * l + 1 - j) * j) : ℝ) * z) := by
  unfold Cx.smul' Sphere.rc
  have e4 : (((2 * l + 1 - j) * j : ℕ) : ℝ) = (2 * (l:ℝ) + 1 - j) * j := by
    rw [Nat.cast_mul, Nat.cast_sub (by omega)]; push_cast; ring
  rw [fin_dbl, fin_rt _ (by positivity), e4]
  unfold toCx
  simp

theorem smul_lc {l j : ℕ} (hj : j ≤ 2 * l) (z : ℂ) :
    Cx.smul' (Sphere.lc l j) (toCx z) = toCx ((Real.sqrt ((j + 1) * (2 * l - j)) : ℝ) * z) := by
  unfold Cx.smul' Sphere.lc
  have e4 : (((j + 1) * (2 * l - j) : ℕ) : ℝ) = ((j:ℝ) + 1) * (2 * l - j) := by
    rw [Nat.cast_mul, Nat.cast_sub (by omega)]; push_cast; ring
  rw [fin_dbl, fin_rt _ (by positivity), e4]
  unfold toCx
  simp

section ladder
variable {s : Sphere CR}

theorem gv_take {β : Type} [Inhabited β] {q : List β} {n k : ℕ} (hk : k < n) : gv (q.take n) k = gv q k := by
  unfold gv; rw [List.getElem?_take_of_lt hk]

theorem raiseP_coefs (h : s.Wf) {q : List (Cx CR)} {c : ℕ → ℤ → ℂ} (hq : s.sht.IsCoefsC q c) :
    s.sht.IsCoefsC ((s.raiseP (s.bufC q)).take s.sht.ncp) (raisedG s.lmax s.mmax c) := by
  have hle := h.ncp_le
  have hmm := h.api.mmax_eq
  refine ⟨by simp [Sphere.raiseP, hle], fun l m hr => ?_⟩
  have hlt := hr.lt h.api.mmax_le
  have hc := hq.2 l m hr
  unfold Shtns.cfC at hc ⊢
  have hp := fun h0 => prevC_spec hr h0
  rw [gv_take hlt]
  rw [hmm] at hlt hc hp ⊢
  unfold Sphere.raiseP raisedG
  rw [gv_tab (by omega), Sphere.gv_bufC hq.1 hlt, Sphere.gv_bufC hq.1 (k := (pidx s.mmax l m).toNat - 1) (by omega)]
  generalize hk : (pidx s.mmax l m).toNat = k at *
  obtain ⟨b1, b2⟩ := Sphere.block_of_sqrt k
  by_cases h1 : k.sqrt < s.lmax
  · rw [if_pos h1, if_pos h1]
    by_cases h2 : k = k.sqrt * k.sqrt
    · rw [if_pos h2, if_pos h2]; simp [toCx]
    · rw [if_neg h2, if_neg h2]
      obtain ⟨p1, p2⟩ := hp (by rintro rfl; simp at h2)
      have := hq.2 _ _ p1
      unfold Shtns.cfC at this
      rw [hmm, p2] at this
      rw [this, smul_rc (by omega)]
      congr 4
      rw [Nat.cast_sub b1]; push_cast; ring
  · rw [if_neg h1, if_neg h1, hc]

theorem lowerP_coefs (h : s.Wf) (hd : s.lmax ^ 2 ≤ s.sht.ncp) {q : List (Cx CR)} {c : ℕ → ℤ → ℂ} (hq : s.sht.IsCoefsC q c) :
    s.sht.IsCoefsC ((s.lowerP (s.bufC q)).take s.sht.ncp) (loweredG s.lmax s.mmax c) := by
  have hle := h.ncp_le
  have hmm := h.api.mmax_eq
  refine ⟨by simp [Sphere.lowerP, hle], fun l m hr => ?_⟩
  have hlt := hr.lt h.api.mmax_le
  have hc := hq.2 l m hr
  unfold Shtns.cfC at hc ⊢
  have hp := fun h0 => nextC_spec h.api.mmax_le hr h0
  rw [gv_take hlt]
  rw [hmm] at hlt hc hp ⊢
  unfold Sphere.lowerP loweredG
  rw [gv_tab (by omega), Sphere.gv_bufC hq.1 hlt]
  generalize hk : (pidx s.mmax l m).toNat = k at *
  obtain ⟨b1, b2⟩ := Sphere.block_of_sqrt k
  by_cases h1 : k.sqrt < s.lmax
  · rw [if_pos h1, if_pos h1]
    by_cases h2 : k = k.sqrt * k.sqrt + 2 * k.sqrt
    · rw [if_pos h2, if_pos h2]; simp [toCx]
    · rw [if_neg h2, if_neg h2]
      have hk1 : k + 1 < s.sht.ncp := by
        have : (k.sqrt + 1) * (k.sqrt + 1) ≤ s.lmax * s.lmax := Nat.mul_le_mul (by omega) (by omega)
        have e1 : (k.sqrt + 1) * (k.sqrt + 1) = k.sqrt * k.sqrt + 2 * k.sqrt + 1 := by ring
        rw [pow_two] at hd
        omega
      obtain ⟨p1, p2⟩ := hp hk1
      have := hq.2 _ _ p1
      unfold Shtns.cfC at this
      rw [hmm, p2] at this
      rw [Sphere.gv_bufC hq.1 hk1, this, smul_lc (by omega)]
      congr 4
      rw [Nat.cast_sub b1]; push_cast; ring
  · rw [if_neg h1, if_neg h1, hc]

end ladder

/-- in the degrees with all their orders the code finds the right modes -/
theorem ladderG_low {L M l : ℕ} (hl : l ≤ M) {m : ℤ} (hm : |m| ≤ (l : ℤ)) (c : ℕ → ℤ → ℂ) :
    raisedG L M c l m = raised L c l m ∧ loweredG L M c l m = lowered L c l m := by
  rw [abs_le] at hm
  obtain ⟨j, rfl⟩ : ∃ j : ℕ, m = (j : ℤ) - l := ⟨(m + l).toNat, by omega⟩
  have hp : (pidx M l ((j : ℤ) - l)).toNat = l * l + j := by
    have := pidx_toNat M l j
    rwa [Nat.min_eq_left hl, prow_low (by omega)] at this
  have hs : (l * l + j).sqrt = l := Sphere.sqrt_block (Nat.le_add_right _ _) (by omega)
  unfold raisedG raised loweredG lowered prevC nextC
  rw [hp, hs, Nat.min_eq_left hl]
  constructor
  · by_cases h1 : l < L
    · rw [if_pos h1, if_pos h1]
      by_cases h2 : j = 0
      · rw [if_pos (by omega), if_pos (by omega)]
      · rw [if_neg (by omega), if_neg (by omega), if_neg (by omega)]
        congr 4 <;> push_cast <;> ring
    · rw [if_neg h1, if_neg h1]
  · by_cases h1 : l < L
    · rw [if_pos h1, if_pos h1]
      by_cases h2 : j = 2 * l
      · rw [if_pos (by omega), if_pos (by omega)]
      · rw [if_neg (by omega), if_neg (by omega), if_neg (by omega)]
        congr 4 <;> push_cast <;> ring
    · rw [if_neg h1, if_neg h1]

/-- with at most one order missing the loops find the right modes everywhere -/
theorem ladderG_eq {L M l : ℕ} (hLM : L ≤ M + 1) (hl : l ≤ L) {m : ℤ} (hm : |m| ≤ (l : ℤ)) (hmM : |m| ≤ (M : ℤ)) (c : ℕ → ℤ → ℂ) :
    raisedG L M c l m = raised L c l m ∧ loweredG L M c l m = lowered L c l m := by
  by_cases h1 : l ≤ M
  · exact ladderG_low h1 hm c
  · have e : l = M + 1 := by omega
    have hL : ¬ l < L := by omega
    rw [abs_le] at hm hmM
    have hge : ¬ (pidx M l m).toNat.sqrt < L := by
      rw [Sphere.sqrt_lt_iff, pidx_row, e, prow_low (Nat.le_refl _), Nat.min_eq_right (by omega), show L = M + 1 by omega]
      generalize (M + 1) * (M + 1) = t
      omega
    unfold raisedG raised loweredG lowered
    rw [if_neg hL, if_neg hL, if_neg hge, if_neg hge]
    exact ⟨rfl, rfl⟩

/-- without content in the incomplete degrees `raise` finds the right modes -/
theorem raisedG_resolved {L M l : ℕ} (hl : l ≤ L) {m : ℤ} (hm : |m| ≤ (l : ℤ)) (hmM : |m| ≤ (M : ℤ)) {c : ℕ → ℤ → ℂ}
    (hz : ∀ l m, M < l → l ≤ L → c l m = 0) : raisedG L M c l m = raised L c l m := by
  by_cases h1 : l ≤ M
  · exact (ladderG_low h1 hm c).1
  · have z := fun m => hz l m (by omega) hl
    have e1 : raised L c l m = 0 := by unfold raised; rw [z, z]; simp
    rw [e1]
    obtain ⟨j, hj, rfl⟩ : ∃ j : ℕ, j ≤ 2 * M ∧ m = (j : ℤ) - M := by
      rw [abs_le] at hmM; exact ⟨(m + M).toNat, by omega, by omega⟩
    have hp : (pidx M l ((j : ℤ) - M)).toNat = prow M l + j := by
      have := pidx_toNat M l j
      rwa [Nat.min_eq_right (by omega)] at this
    unfold raisedG
    by_cases hp1 : (prevC M l ((j : ℤ) - M)).1 = l
    · rw [hp1, z, z]; simp
    · unfold prevC at hp1
      have hj0 : j = 0 := by
        by_contra h0
        rw [Nat.min_eq_right (by omega), if_neg (by omega)] at hp1
        exact hp1 rfl
      by_cases hl1 : l = M + 1
      · have hs : (prow M l).sqrt * (prow M l).sqrt = prow M l := by
          rw [prow_low (by omega), Nat.sqrt_eq]
        rw [z, hp, hj0, Nat.add_zero, if_pos hs.symm]
        simp
      · have hp2 : (prevC M l ((j : ℤ) - M)).1 = l - 1 := by
          unfold prevC
          rw [Nat.min_eq_right (by omega), if_pos (by omega)]
        rw [z, hp2, hz (l - 1) _ (by omega) (by omega)]
        simp

/-- without content in the incomplete degrees the loops find the right modes everywhere -/
theorem ladderG_resolved {L M l : ℕ} (hl : l ≤ L) {m : ℤ} (hm : |m| ≤ (l : ℤ)) (hmM : |m| ≤ (M : ℤ)) {c : ℕ → ℤ → ℂ}
    (hd : L * L ≤ prow M (L + 1)) (hz : ∀ l m, M < l → l ≤ L → c l m = 0) :
    raisedG L M c l m = raised L c l m ∧ loweredG L M c l m = lowered L c l m := by
  by_cases h1 : l ≤ M
  · exact ladderG_low h1 hm c
  · have z := fun m => hz l m (by omega) hl
    have e1 : raised L c l m = 0 := by unfold raised; rw [z, z]; simp
    have e2 : lowered L c l m = 0 := by unfold lowered; rw [z, z]; simp
    rw [e1, e2]
    refine ⟨(raisedG_resolved hl hm hmM hz).trans e1, ?_⟩
    obtain ⟨j, hj, rfl⟩ : ∃ j : ℕ, j ≤ 2 * M ∧ m = (j : ℤ) - M := by
      rw [abs_le] at hmM; exact ⟨(m + M).toNat, by omega, by omega⟩
    have hp : (pidx M l ((j : ℤ) - M)).toNat = prow M l + j := by
      have := pidx_toNat M l j
      rwa [Nat.min_eq_right (by omega)] at this
    unfold loweredG
    by_cases hin : (nextC M l ((j : ℤ) - M)).1 = l
    · rw [hin, z, z]; simp
    · have hp2 : (nextC M l ((j : ℤ) - M)).1 = l + 1 := by
        unfold nextC at hin ⊢
        split_ifs at hin ⊢ with h0
        · rfl
        · exact absurd rfl hin
      by_cases hlL : l + 1 ≤ L
      · rw [z, hp2, hz (l + 1) _ (by omega) hlL]; simp
      · -- top degree: its last place is in a block the loop does not visit, or at a block end
        have hlL' : l = L := by omega
        subst hlL'
        have hj2 : j = 2 * M := by
          unfold nextC at hin
          by_contra h0
          rw [Nat.min_eq_right (by omega), if_neg (by omega)] at hin
          exact hin rfl
        rw [prow, Nat.min_eq_right (by omega)] at hd
        rw [hp]
        obtain ⟨b1, b2⟩ := Sphere.block_of_sqrt (prow M l + j)
        by_cases h3 : (prow M l + j).sqrt < l
        · rw [if_pos h3, if_pos]
          have : ((prow M l + j).sqrt + 1) * ((prow M l + j).sqrt + 1) ≤ l * l := Nat.mul_le_mul (by omega) (by omega)
          have e1 : ((prow M l + j).sqrt + 1) * ((prow M l + j).sqrt + 1) = (prow M l + j).sqrt * (prow M l + j).sqrt + 2 * (prow M l + j).sqrt + 1 := by ring
          omega
        · rw [if_neg h3, z]

end SFK
