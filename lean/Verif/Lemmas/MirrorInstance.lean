import Verif.Lemmas.Mirror
import Verif.Lemmas.Env
/-
A transform library with nodes and weights symmetric about the equator exists for all resolved sizes.
-/
namespace SFK
open Scalar CR

/-- Like `exists_shtns_inj`, with nodes and weights symmetric about the equator. -/
theorem exists_shtns_nodes (contig : Bool) {L M nlat nphi : ℕ} (hM : M ≤ L) (hL : L < nlat) (hp : 2 * M < nphi) :
    ∃ (s : Shtns CR) (x : ℕ → ℝ) (A : ℕ → ℕ → ℕ → ℝ), s.Api L M nlat nphi ∧ s.Math contig nlat nphi x A ∧
      (∀ i j, i < nlat → j < nlat → x i = x j → i = j) ∧ EquatorSym nlat L M x A ∧ ∀ it : ℕ, x it = (2 * (it : ℝ) + 1) / nlat - 1 := by
  obtain ⟨x, hxd⟩ : ∃ x : ℕ → ℝ, x = fun it : ℕ => (2 * (it : ℝ) + 1) / nlat - 1 := ⟨_, rfl⟩
  have hn : (0 : ℝ) < nlat := by exact_mod_cast (by omega : 0 < nlat)
  have hin : ∀ it, it < nlat → -1 < x it ∧ x it < 1 := by
    intro it hit
    have h1 : (it : ℝ) + 1 ≤ nlat := by exact_mod_cast hit
    rw [hxd]
    beta_reduce
    constructor
    · have : 0 < (2 * (it : ℝ) + 1) / nlat := by positivity
      linarith
    · have : (2 * (it : ℝ) + 1) / nlat < 2 := by rw [div_lt_iff₀ hn]; linarith
      linarith
  have hinj : ∀ i j, i < nlat → j < nlat → x i = x j → i = j := by
    intro i j _ _ h
    rw [hxd] at h
    beta_reduce at h
    rw [sub_left_inj, div_left_inj' hn.ne'] at h
    have : (i : ℝ) = j := by linarith
    exact_mod_cast this
  have hnode : ∀ it, it < nlat → x (nlat - 1 - it) = -x it := by
    intro it hit
    rw [hxd]
    beta_reduce
    rw [show nlat - 1 - it = nlat - (1 + it) by omega, Nat.cast_sub (by omega)]
    push_cast
    field_simp
    ring
  choose B hB using fun m => exists_quad (L := L) hL hin hinj (1 / (nphi : ℝ)) m
  obtain ⟨A, hAd⟩ : ∃ A : ℕ → ℕ → ℕ → ℝ, A = fun l m it => (B m l it + (-1) ^ (l + m) * B m l (nlat - 1 - it)) / 2 := ⟨_, rfl⟩
  have hrefl : ∀ m l l', m ≤ l → l ≤ L → m ≤ l' → l' ≤ L →
      ∑ it ∈ Finset.range nlat, B m l (nlat - 1 - it) * ThN l' m (Real.arccos (x it)) = (-1) ^ (l' + m) * if l = l' then 1 / (nphi : ℝ) else 0 := by
    intro m l l' a b c d
    rw [← hB m l l' a b c d, ← Finset.sum_range_reflect, Finset.mul_sum]
    refine Finset.sum_congr rfl fun it hit => ?_
    rw [Finset.mem_range] at hit
    rw [show nlat - 1 - (nlat - 1 - it) = it by omega, hnode it hit, Real.arccos_neg, ThN_mir]
    ring
  have hquad : ∀ m l l', m ≤ M → m ≤ l → l ≤ L → m ≤ l' → l' ≤ L →
      ∑ it ∈ Finset.range nlat, A l m it * ThN l' m (Real.arccos (x it)) = if l = l' then 1 / (nphi : ℝ) else 0 := by
    intro m l l' _ a b c d
    have e : ∀ it, A l m it * ThN l' m (Real.arccos (x it)) = (1 / 2) * (B m l it * ThN l' m (Real.arccos (x it)))
        + ((-1) ^ (l + m) / 2) * (B m l (nlat - 1 - it) * ThN l' m (Real.arccos (x it))) := by
      intro it
      rw [hAd]
      ring
    rw [Finset.sum_congr rfl fun it _ => e it, Finset.sum_add_distrib, ← Finset.mul_sum, ← Finset.mul_sum, hB m l l' a b c d, hrefl m l l' a b c d]
    by_cases hl : l = l'
    · subst hl
      rw [if_pos rfl]
      have : ((-1 : ℝ) ^ (l + m)) * (-1) ^ (l + m) = 1 := by rw [← mul_pow]; simp
      linear_combination (1 / (nphi : ℝ) / 2) * this
    · rw [if_neg hl]; ring
  refine ⟨sht0 contig L M nlat nphi x A, x, A, sht0_api contig x _ hM, sht0_math contig hM hin hp hquad, hinj, ⟨hnode, ?_⟩, fun it => by rw [hxd]⟩
  intro l m it _ _ _ hit
  rw [hAd]
  beta_reduce
  rw [show nlat - 1 - (nlat - 1 - it) = it by omega]
  have : ((-1 : ℝ) ^ (l + m)) * (-1) ^ (l + m) = 1 := by rw [← mul_pow]; simp
  linear_combination -(B m l (nlat - 1 - it) / 2) * this

theorem exists_env_nodes (contig ndebug useCheb : Bool) {nx nl nm nlat nphi : ℕ} (hM : nm ≤ nl) (hL : nl < nlat) (hp : 2 * nm < nphi) :
    ∃ (E : Env CR) (x : ℕ → ℝ) (A : ℕ → ℕ → ℕ → ℝ), E.contig = contig ∧ E.ndebug = ndebug ∧ E.useCheb = useCheb ∧
      E.Exact nx nl nm nlat nphi x A ∧ (∀ i j, i < nlat → j < nlat → x i = x j → i = j) ∧ EquatorSym nlat nl nm x A ∧
      ∀ it : ℕ, x it = (2 * (it : ℝ) + 1) / nlat - 1 := by
  obtain ⟨t, x, A, h1, h2, h3, h4, h5⟩ := exists_shtns_nodes contig hM hL hp
  obtain ⟨dct, hd⟩ := exists_fftw nx
  exact ⟨⟨contig, ndebug, useCheb, fun _ _ _ _ => t, fun _ _ _ _ => t.nspat, fun _ => dct, fun _ => true⟩, x, A, rfl, rfl,
    rfl, ⟨⟨h1, rfl, rfl, hd.len⟩, h2, hd⟩, h3, h4, h5⟩

/-- the libraries of `exists_env_inj`, with nodes and weights symmetric about the equator -/
theorem exists_env_mir (contig ndebug useCheb : Bool) {nx nl nm nlat nphi : ℕ} (hM : nm ≤ nl) (hL : nl < nlat) (hp : 2 * nm < nphi) :
    ∃ (E : Env CR) (x : ℕ → ℝ) (A : ℕ → ℕ → ℕ → ℝ), E.contig = contig ∧ E.ndebug = ndebug ∧ E.useCheb = useCheb ∧
      E.Exact nx nl nm nlat nphi x A ∧ (∀ i j, i < nlat → j < nlat → x i = x j → i = j) ∧ EquatorSym nlat nl nm x A := by
  obtain ⟨E, x, A, h1, h2, h3, h4, h5, h6, _⟩ := exists_env_nodes contig ndebug useCheb (nx := nx) hM hL hp
  exact ⟨E, x, A, h1, h2, h3, h4, h5, h6⟩

end SFK
