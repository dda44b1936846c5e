import Verif.Props.Tests
import Verif.Lemmas.LinSphere
/-
C101, continued: the test `filter_is_TVD` of the sphere in exact arithmetic.
-/
namespace SFK
open Scalar CR

/-- The total variation of test_sphere.cpp:343-360 of the numbers `f it ip`. -/
noncomputable def variation2 (nlat nphi : ℕ) (f : ℕ → ℕ → ℝ) : ℝ :=
  ∑ ip ∈ Finset.range (nphi - 1), ∑ it ∈ Finset.range (nlat - 1), (|f it ip - f it (ip + 1)| + |f it ip - f (it + 1) ip|)

namespace Tests
variable {sht : Shtns CR} {contig nd : Bool} {x : ℕ → ℝ} {A : ℕ → ℕ → ℕ → ℝ} {s : Sphere CR}

theorem tvLoop2_eq (hW : s.nlat * s.nphi < W) (h1 : 1 ≤ s.nlat) (h2 : 1 ≤ s.nphi) {v : List CR} {f : ℕ → ℕ → ℝ} (hv : Is2 contig s.nlat s.nphi v f) :
    tvLoop2 contig s v = .ok (fin (variation2 s.nlat s.nphi f)) := by
  have hW1 : s.nphi < W := lt_of_le_of_lt (Nat.le_mul_of_pos_left _ h1) hW
  have hW2 : s.nlat < W := lt_of_le_of_lt (Nat.le_mul_of_pos_right _ h2) hW
  unfold tvLoop2
  rw [usub_of_le hW1 h2, usub_of_le hW2 h1]
  have cell : ∀ it ip, it < s.nlat - 1 → ip < s.nphi - 1 →
      tvCell contig s v it ip = .ok (fin (|f it ip - f it (ip + 1)| + |f it ip - f (it + 1) ip|)) := by
    intro it ip a b
    unfold tvCell
    have c1 := spos_lt (contig := contig) (by omega : it < s.nlat) (by omega : ip < s.nphi)
    have c2 := spos_lt (contig := contig) (by omega : it < s.nlat) (by omega : ip + 1 < s.nphi)
    have c3 := spos_lt (contig := contig) (by omega : it + 1 < s.nlat) (by omega : ip < s.nphi)
    rw [indx_eq hW (by omega) (by omega), indx_eq hW (by omega) (by omega), indx_eq hW (by omega) (by omega), rd_ok (by rw [hv.1]; exact c1), ok_bind,
      rd_ok (by rw [hv.1]; exact c2), ok_bind, rd_ok (by rw [hv.1]; exact c3), ok_bind, hv.2 _ _ (by omega) (by omega), hv.2 _ _ (by omega) (by omega),
      hv.2 _ _ (by omega) (by omega)]
    rfl
  have key := forRange_closed (s := (0 : CR)) (lo := 0) (hi := s.nphi - 1)
    (b := fun ip tv => forRange 0 (s.nlat - 1) tv fun it tv => do
      let d ← tvCell contig s v it ip
      .ok (tv + d))
    (fun k => fin (∑ ip ∈ Finset.range k, ∑ it ∈ Finset.range (s.nlat - 1), (|f it ip - f it (ip + 1)| + |f it ip - f (it + 1) ip|)))
    (Nat.zero_le _) (by rw [Finset.sum_range_zero, ← fin_ofNat_zero]) (fun ip _ hip => by
      have key2 := forRange_closed (lo := 0) (hi := s.nlat - 1)
        (s := fin (∑ ip ∈ Finset.range ip, ∑ it ∈ Finset.range (s.nlat - 1), (|f it ip - f it (ip + 1)| + |f it ip - f (it + 1) ip|)))
        (b := fun it tv => do
          let d ← tvCell contig s v it ip
          .ok (tv + d))
        (fun k => fin (∑ ip ∈ Finset.range ip, ∑ it ∈ Finset.range (s.nlat - 1), (|f it ip - f it (ip + 1)| + |f it ip - f (it + 1) ip|)
          + ∑ it ∈ Finset.range k, (|f it ip - f it (ip + 1)| + |f it ip - f (it + 1) ip|)))
        (Nat.zero_le _) (by rw [Finset.sum_range_zero, add_zero]) (fun it _ hit => by
          rw [cell it ip hit hip, ok_bind, fin_add, Finset.sum_range_succ, add_assoc])
      rw [Finset.sum_range_succ]
      exact key2)
  exact key

/-- filling a vector with numbers that may depend on the indices -/
theorem fillN_eq (h : s.Wf) (hm : s.sht.Math contig s.nlat s.nphi x A) (hW : s.nlat * s.nphi < W) (h1 : 1 ≤ s.nlat) (F : CR → CR → ℕ → CR) {u : ℕ → ℕ → ℝ}
    (hF : ∀ it ip, it < s.nlat → ip < s.nphi → F (fin (Real.arccos (x it))) (fin (phiN s.nphi ip)) (spos contig s.nlat s.nphi it ip) = fin (u it ip)) :
    ∃ w, forRange 0 s.nphi (List.replicate s.nSph (0 : CR)) (fun ip v => forRange 0 s.nlat v fun it v => do
      let th ← s.theta it
      wr v (indx contig s it ip) (F th (s.phi ip) (indx contig s it ip))) = .ok w ∧ Is2 contig s.nlat s.nphi w u := by
  have hp : 0 < s.nphi := by have := hm.nphi_gt; omega
  have hl : 0 < s.nlat := h1
  have key := forRange2_wr (A := s.nphi) (B := s.nlat) (n := s.nlat * s.nphi) (v := List.replicate s.nSph (0 : CR))
    (b := fun ip it v => do
      let th ← s.theta it
      wr v (indx contig s it ip) (F th (s.phi ip) (indx contig s it ip)))
    (fun ip it => spos contig s.nlat s.nphi it ip) (fun ip it => fin (u it ip))
    (fun k => if contig then k / s.nlat else k % s.nphi) (fun k => if contig then k % s.nlat else k / s.nphi) (by rw [List.length_replicate, h.nSph'])
    (fun ip it h1 h2 => by
      refine ⟨spos_lt h2 h1, ?_, ?_⟩ <;> unfold spos <;> cases contig <;>
        simp only [Bool.false_eq_true, if_false, if_true]
      · rw [Nat.mul_add_mod, Nat.mod_eq_of_lt h1]
      · rw [Nat.mul_add_div hl, Nat.div_eq_of_lt h2, Nat.add_zero]
      · rw [Nat.mul_add_div hp, Nat.div_eq_of_lt h1, Nat.add_zero]
      · rw [Nat.mul_add_mod, Nat.mod_eq_of_lt h2])
    (fun ip it w h1 h2 h3 _ => by
      beta_reduce
      rw [theta_eq h hm h2, ok_bind, indx_eq hW h2 h1, phi_eq h hp, hF it ip h2 h1])
  refine ⟨_, key, by simp, fun it ip h1 h2 => ?_⟩
  rw [gv_tab (spos_lt h1 h2)]
  have e1 : (if contig then (spos contig s.nlat s.nphi it ip) / s.nlat else (spos contig s.nlat s.nphi it ip) % s.nphi) = ip := by
    unfold spos
    cases contig <;> simp only [Bool.false_eq_true, if_false, if_true]
    · rw [Nat.mul_add_mod, Nat.mod_eq_of_lt h2]
    · rw [Nat.mul_add_div hl, Nat.div_eq_of_lt h1, Nat.add_zero]
  have e2 : (if contig then (spos contig s.nlat s.nphi it ip) % s.nlat else (spos contig s.nlat s.nphi it ip) / s.nphi) = it := by
    unfold spos
    cases contig <;> simp only [Bool.false_eq_true, if_false, if_true]
    · rw [Nat.mul_add_div hp, Nat.div_eq_of_lt h2, Nat.add_zero]
    · rw [Nat.mul_add_mod, Nat.mod_eq_of_lt h1]
  beta_reduce
  rw [e1, e2, if_pos ⟨h2, h1, rfl⟩]

end Tests
open Tests
variable {sht : Shtns CR} {contig nd : Bool} {x : ℕ → ℝ} {A : ℕ → ℕ → ℕ → ℝ}

/-- the data of the test `filter_is_TVD` of the sphere when the random numbers are `r k` -/
noncomputable def roughU (contig : Bool) (x : ℕ → ℝ) (r : ℕ → ℝ) (it ip : ℕ) : ℝ :=
  Real.sin (Real.arccos (x it)) ^ 2 * Real.cos (phiN 96 ip) ^ 2 * (1 + r (spos contig 34 96 it ip))

/-- **C101**: what the test `filter_is_TVD` of the sphere decides.  The function tested is an arbitrary program `op` that returns the numbers `f it ip` when given the data
of the test: the test passes if and only if the variation of its output is smaller than that of its input. -/
theorem C101_sphere_filter_verdict (hA : sht.Api 32 16 34 96) (hm : sht.Math contig 34 96 x A) {na : ℕ} (hna : na = sht.nspat) (J : Junk (Cx CR))
    {op : Sphere CR → Junk (Cx CR) → List CR → Exec (List CR)} {noise : ℕ → CR} {r : ℕ → ℝ} (hr : ∀ k, noise k = fin (r k)) {f : ℕ → ℕ → ℝ}
    (hop : ∀ s v, Sphere.mk' 32 16 34 96 na sht nd = .ok s → Is2 contig 34 96 v (roughU contig x r) → ∃ w, op s J v = .ok w ∧ Is2 contig 34 96 w f) :
    ∃ b, sphere_filter_is_TVD_with op sht na contig nd J noise = .ok b ∧ (b = true ↔ variation2 34 96 f < variation2 34 96 (roughU contig x r)) := by
  obtain ⟨s, h1, hw, hm, hl, hM, e1, e2, _⟩ := construct (nd := nd) hA hm hna (by norm_num)
  have hW : s.nlat * s.nphi < W := by rw [e1, e2]; decide
  obtain ⟨v, v1, v2⟩ := fillN_eq (contig := contig) hw hm hW (by omega) (fun th ph k => pown (sin th) 2 * pown (cos ph) 2 * (1 + noise k)) (u := roughU contig x r)
    (fun it ip _ _ => by
      rw [hr]
      unfold roughU
      rw [e1, e2]
      simp only [fin_sin, fin_cos, fin_pown, fin_mul, fin_ofNat_one, fin_add])
  obtain ⟨w, w1, w2⟩ := hop s v h1 (by rw [e1, e2] at v2; exact v2)
  unfold sphere_filter_is_TVD_with
  rw [h1, ok_bind, v1, ok_bind, w1, ok_bind, tvLoop2_eq hW (by omega) (by omega) v2, ok_bind,
    tvLoop2_eq hW (by omega) (by omega) (v := w) (f := f) (by rw [e1, e2]; exact w2), ok_bind]
  refine ⟨_, rfl, ?_⟩
  rw [fin_lt, e1, e2]

/-- **C101**: a filter that does nothing fails the test, whatever the random numbers. -/
theorem C101_sphere_filter_identity (hA : sht.Api 32 16 34 96) (hm : sht.Math contig 34 96 x A) {na : ℕ} (hna : na = sht.nspat) (J : Junk (Cx CR))
    {noise : ℕ → CR} {r : ℕ → ℝ} (hr : ∀ k, noise k = fin (r k)) :
    sphere_filter_is_TVD_with (fun _ _ v => .ok v) sht na contig nd J noise = .ok false := by
  obtain ⟨b, b1, b2⟩ := C101_sphere_filter_verdict (nd := nd) hA hm hna J (op := fun _ _ v => .ok v) hr (fun s v _ h => ⟨v, rfl, h⟩)
  rw [b1]
  refine congrArg Except.ok (Bool.not_eq_true b ▸ fun hb => ?_)
  exact lt_irrefl _ (b2.mp hb)

/-- **C101**: with the code's filter the test runs to the end for all random numbers, and its verdict compares the variation of the data with that of the
series whose coefficients are those of the data times the documented factors (except that the top degree and order are kept). -/
theorem C101_sphere_filter (hA : sht.Api 32 16 34 96) (hm : sht.Math contig 34 96 x A) {na : ℕ} (hna : na = sht.nspat) (J : Junk (Cx CR))
    {noise : ℕ → CR} {r : ℕ → ℝ} (hr : ∀ k, noise k = fin (r k)) :
    ∃ b, sphere_filter_is_TVD sht na contig nd J noise = .ok b ∧ (b = true ↔
      variation2 34 96 (fun it ip => fieldR 32 16 (fun l m =>
        if l < 32 ∧ m < 16 then ((Real.exp (-40 * ((l : ℝ) / 32) ^ 16) * Real.exp (-40 * ((m : ℝ) / 32) ^ 16) : ℝ) : ℂ) * anaN A 34 96 (roughU contig x r) l m
        else anaN A 34 96 (roughU contig x r) l m) (Real.arccos (x it)) (phiN 96 ip))
      < variation2 34 96 (roughU contig x r)) := by
  refine C101_sphere_filter_verdict hA hm hna J hr fun s v hs hv => ?_
  obtain ⟨s', h1, hw, hm, hl, hM, e1, e2, _⟩ := construct (nd := nd) hA hm hna (by norm_num)
  rw [h1] at hs
  cases hs
  rw [← e1, ← e2] at hv
  have h := filtP_is2 hw hm hv
  refine ⟨_, hw.filter_eq J (by rw [hv.1, hw.nSph']), ?_⟩
  unfold mulN filtM at h
  rw [hl, hM, e1, e2] at h
  exact_mod_cast h

/-! ### equal random numbers -/

namespace Tests

/-- coefficients of `p + q (3cos²θ-1)/2 + 6 t sin²θ cos 2φ` -/
noncomputable def triC (p q t : ℝ) (l m : ℕ) : ℂ :=
  if l = 0 ∧ m = 0 then ((p / nrmY 0 0 : ℝ) : ℂ) else if l = 2 ∧ m = 0 then ((q / nrmY 2 0 : ℝ) : ℂ)
  else if l = 2 ∧ m = 2 then ((t / nrmY 2 2 : ℝ) : ℂ) else 0

theorem triC_real (p q t : ℝ) (l : ℕ) : (triC p q t l 0).im = 0 := by
  unfold triC
  split_ifs <;> simp

theorem triC_hi (p q t : ℝ) {l m : ℕ} (h : 2 < l) : triC p q t l m = 0 := by
  unfold triC
  rw [if_neg (by omega), if_neg (by omega), if_neg (by omega)]

theorem fieldR_tri (p q t : ℝ) {L M : ℕ} (hL : 2 ≤ L) (hM : 2 ≤ M) (θ φ : ℝ) :
    fieldR L M (triC p q t) θ φ = p + q * (1 - 3 / 2 * Real.sin θ ^ 2) + 6 * t * Real.sin θ ^ 2 * (2 * Real.cos φ ^ 2 - 1) := by
  unfold fieldR
  have hsub : (Finset.range 3) ⊆ Finset.range (L + 1) := Finset.range_subset_range.mpr (by omega)
  rw [← Finset.sum_subset hsub]
  · rw [Finset.sum_range_succ, Finset.sum_range_succ, Finset.sum_range_succ, Finset.sum_range_zero]
    have s0 : (∑ m ∈ Finset.Icc 1 (min 0 M), triC p q t 0 m * Ylm 0 m θ φ) = 0 := by simp
    have s1 : (∑ m ∈ Finset.Icc 1 (min 1 M), triC p q t 1 m * Ylm 1 m θ φ) = 0 := by
      apply Finset.sum_eq_zero
      intro m _
      unfold triC
      rw [if_neg (by omega), if_neg (by omega), if_neg (by omega), zero_mul]
    have s2 : (∑ m ∈ Finset.Icc 1 (min 2 M), triC p q t 2 m * Ylm 2 m θ φ) = ((t / nrmY 2 2 : ℝ) : ℂ) * Ylm 2 ((2 : ℕ) : ℤ) θ φ := by
      rw [Nat.min_eq_left hM, Finset.sum_eq_single 2]
      · unfold triC
        rw [if_neg (by omega), if_neg (by omega), if_pos (by omega)]
      · intro m hm h2
        unfold triC
        rw [Finset.mem_Icc] at hm
        rw [if_neg (by omega), if_neg (by omega), if_neg (by omega), zero_mul]
      · intro h; exact absurd (Finset.mem_Icc.mpr ⟨by omega, by omega⟩) h
    rw [s0, s1, s2, Ylm_re]
    have c0 : (triC p q t 0 0).re = p / nrmY 0 0 := by
      unfold triC; rw [if_pos (by omega)]; exact Complex.ofReal_re _
    have c1 : (triC p q t 1 0).re = 0 := by
      unfold triC; rw [if_neg (by omega), if_neg (by omega), if_neg (by omega)]; rfl
    have c2 : (triC p q t 2 0).re = q / nrmY 2 0 := by
      unfold triC; rw [if_neg (by omega), if_pos (by omega)]; exact Complex.ofReal_re _
    rw [c0, c1, c2, ThN_00, ThN_20, ThN_22]
    have n0 := (nrmY_pos 0 0).ne'
    have n1 := (nrmY_pos 2 0).ne'
    have n2 := (nrmY_pos 2 2).ne'
    have hc : Real.cos (((2 : ℕ) : ℝ) * φ) = 2 * Real.cos φ ^ 2 - 1 := by
      rw [← Real.cos_two_mul]; norm_num
    rw [hc]
    have hs := Real.sin_sq_add_cos_sq θ
    rw [Complex.zero_re]
    have e : p / nrmY 0 0 * nrmY 0 0 = p := by field_simp
    have e2 : q / nrmY 2 0 * (nrmY 2 0 * (3 / 2 * Real.cos θ ^ 2 - 1 / 2)) = q * (3 / 2 * Real.cos θ ^ 2 - 1 / 2) := by field_simp
    have e3 : t / nrmY 2 2 * (nrmY 2 2 * 3 * Real.sin θ ^ 2) = 3 * t * Real.sin θ ^ 2 := by field_simp
    rw [e, e2, e3]
    have hc2 : Real.cos θ ^ 2 = 1 - Real.sin θ ^ 2 := by linarith
    rw [hc2]
    ring
  · intro l _ hl
    rw [Finset.mem_range] at hl
    rw [triC_hi p q t (by omega), Finset.sum_eq_zero]
    · simp
    · intro m _
      rw [triC_hi p q t (by omega), zero_mul]

theorem cos2_shift (ip : ℕ) : 2 * Real.cos (phiN 96 (24 + ip)) ^ 2 - 1 = -(2 * Real.cos (phiN 96 ip) ^ 2 - 1) := by
  rw [← Real.cos_two_mul, ← Real.cos_two_mul, ← Real.cos_add_pi]
  congr 1
  unfold phiN
  push_cast
  ring

/-- the sum of `cos 2φ` over all but the last node -/
theorem cos2_sum : -1 ≤ ∑ ip ∈ Finset.range 95, (2 * Real.cos (phiN 96 ip) ^ 2 - 1) := by
  obtain ⟨g, hg⟩ : ∃ g : ℕ → ℝ, g = fun ip => 2 * Real.cos (phiN 96 ip) ^ 2 - 1 := ⟨_, rfl⟩
  have hs : ∀ ip, g (24 + ip) = -g ip := fun ip => by rw [hg]; exact cos2_shift ip
  have h1 : g 95 ≤ 1 := by
    rw [hg]
    have := Real.cos_sq_le_one (phiN 96 95)
    beta_reduce
    linarith
  have key : ∑ ip ∈ Finset.range 96, g ip = 0 := by
    rw [show (96 : ℕ) = 24 + (24 + (24 + 24)) from rfl, Finset.sum_range_add, Finset.sum_range_add, Finset.sum_range_add]
    simp only [hs, Finset.sum_neg_distrib]
    ring
  rw [Finset.sum_range_succ] at key
  have e : ∑ ip ∈ Finset.range 95, (2 * Real.cos (phiN 96 ip) ^ 2 - 1) = ∑ ip ∈ Finset.range 95, g ip := by rw [hg]
  rw [e]
  linarith

/-- the variation of `b + k (α sin²θ/2 + β sin²θ cos 2φ / 2)` -/
theorem variation_tri {sn c : ℕ → ℝ} (hsn : ∀ i, 0 ≤ sn i) (k b α β : ℝ) (hc : ∀ ip, 0 ≤ α + β * c ip) (hβ : 0 ≤ β) :
    variation2 34 96 (fun it ip => b + k * (α * sn it / 2 + β * sn it * c ip / 2))
      = |k| / 2 * (β * ((∑ it ∈ Finset.range 33, sn it) * ∑ ip ∈ Finset.range 95, |c ip - c (ip + 1)|)
        + (∑ it ∈ Finset.range 33, |sn it - sn (it + 1)|) * (95 * α + β * ∑ ip ∈ Finset.range 95, c ip)) := by
  unfold variation2
  have e1 : ∀ it ip : ℕ, |(b + k * (α * sn it / 2 + β * sn it * c ip / 2)) - (b + k * (α * sn it / 2 + β * sn it * c (ip + 1) / 2))|
      = |k| / 2 * (β * (sn it * |c ip - c (ip + 1)|)) := by
    intro it ip
    rw [show (b + k * (α * sn it / 2 + β * sn it * c ip / 2)) - (b + k * (α * sn it / 2 + β * sn it * c (ip + 1) / 2))
      = k * (β * sn it) * (1 / 2) * (c ip - c (ip + 1)) by ring, abs_mul, abs_mul, abs_mul, abs_of_nonneg (mul_nonneg hβ (hsn it)), abs_of_nonneg (by norm_num : (0 : ℝ) ≤ 1 / 2)]
    ring
  have e2 : ∀ it ip : ℕ, |(b + k * (α * sn it / 2 + β * sn it * c ip / 2)) - (b + k * (α * sn (it + 1) / 2 + β * sn (it + 1) * c ip / 2))|
      = |k| / 2 * (|sn it - sn (it + 1)| * (α + β * c ip)) := by
    intro it ip
    rw [show (b + k * (α * sn it / 2 + β * sn it * c ip / 2)) - (b + k * (α * sn (it + 1) / 2 + β * sn (it + 1) * c ip / 2))
      = k * (1 / 2) * (sn it - sn (it + 1)) * (α + β * c ip) by ring, abs_mul, abs_mul, abs_mul, abs_of_nonneg (hc ip), abs_of_nonneg (by norm_num : (0 : ℝ) ≤ 1 / 2)]
    ring
  simp only [e1, e2]
  rw [show (96 - 1 : ℕ) = 95 from rfl, show (34 - 1 : ℕ) = 33 from rfl]
  have e3 : ∀ ip : ℕ, ∑ it ∈ Finset.range 33, (|k| / 2 * (β * (sn it * |c ip - c (ip + 1)|)) + |k| / 2 * (|sn it - sn (it + 1)| * (α + β * c ip)))
      = |k| / 2 * (β * ((∑ it ∈ Finset.range 33, sn it) * |c ip - c (ip + 1)|) + (∑ it ∈ Finset.range 33, |sn it - sn (it + 1)|) * (α + β * c ip)) := by
    intro ip
    rw [Finset.sum_add_distrib, ← Finset.mul_sum, ← Finset.mul_sum, ← Finset.mul_sum, ← Finset.sum_mul, ← Finset.sum_mul]
    ring
  rw [Finset.sum_congr rfl (fun ip _ => e3 ip), ← Finset.mul_sum, Finset.sum_add_distrib, ← Finset.mul_sum, ← Finset.mul_sum, ← Finset.mul_sum, Finset.sum_add_distrib,
    ← Finset.mul_sum, Finset.sum_const, Finset.card_range, nsmul_eq_mul]
  norm_num

end Tests

/-- **C101**: if `rand()` returns the same number every time (so that the data are not rough at all) the filter test of the sphere passes - unlike
that of the finite differences, C101_fd_filter_constant_noise. -/
theorem C101_sphere_filter_constant_noise (hA : sht.Api 32 16 34 96) (hm : sht.Math contig 34 96 x A) {na : ℕ} (hna : na = sht.nspat) (J : Junk (Cx CR))
    {r : ℝ} (hr : 0 ≤ r) : sphere_filter_is_TVD sht na contig nd J (fun _ => fin r) = .ok true := by
  obtain ⟨a, ha⟩ : ∃ a : ℝ, a = Real.exp (-40 * (((2 : ℕ) : ℝ) / ((32 : ℕ) : ℝ)) ^ 16) := ⟨_, rfl⟩
  have a0 : 0 < a := by rw [ha]; exact Real.exp_pos _
  have a1 : a < 1 := by
    rw [ha, Real.exp_lt_one_iff]
    norm_num
  obtain ⟨sn, hsn⟩ : ∃ sn : ℕ → ℝ, sn = fun it => Real.sin (Real.arccos (x it)) ^ 2 := ⟨_, rfl⟩
  obtain ⟨c, hc⟩ : ∃ c : ℕ → ℝ, c = fun ip => 2 * Real.cos (phiN 96 ip) ^ 2 - 1 := ⟨_, rfl⟩
  have sn0 : ∀ i, 0 ≤ sn i := fun i => by rw [hsn]; positivity
  have c1 : ∀ i, -1 ≤ c i ∧ c i ≤ 1 := fun i => by
    rw [hc]
    have h1 := Real.cos_sq_le_one (phiN 96 i)
    have h2 := sq_nonneg (Real.cos (phiN 96 i))
    constructor <;> beta_reduce <;> linarith
  have hU : roughU contig x (fun _ => r) = fun it ip => 0 + (1 + r) * (1 * sn it / 2 + 1 * sn it * c ip / 2) := by
    funext it ip
    unfold roughU
    rw [hsn, hc]
    ring
  obtain ⟨b, b1, b2⟩ := C101_sphere_filter_verdict (nd := nd) hA hm hna J (op := Sphere.filter) (noise := fun _ => fin r) (r := fun _ => r) (fun _ => rfl)
    (f := fun it ip => (1 + r) / 3 * (1 - a) + (1 + r) * (a * sn it / 2 + a * a * sn it * c ip / 2)) (fun s v hs hv => by
      obtain ⟨s', h1, hw, hm, hl, hM, e1, e2, _⟩ := construct (nd := nd) hA hm hna (by norm_num)
      rw [h1] at hs
      cases hs
      have hv' : Samples contig s.nlat s.nphi x v (fieldR s.lmax s.mmax (triC ((1 + r) / 3) (-(1 + r) / 3) ((1 + r) / 12))) := by
        rw [e1, e2, hl, hM]
        refine ⟨hv.1, fun it ip i1 i2 => ?_⟩
        rw [hv.2 it ip i1 i2, fieldR_tri _ _ _ (by norm_num) (by norm_num)]
        unfold roughU
        congr 1
        ring
      obtain ⟨w, w1, w2⟩ := C29_filter_partial hw (hm.roundTrip hw.api) J (samples_rep hw hm (fun l _ => triC_real _ _ _ l) hv') (fun l m _ hlm => by
        unfold triC
        rw [if_neg (by omega), if_neg (by omega), if_neg (by omega)])
      refine ⟨w, w1, ?_⟩
      have hco : (fun l m : ℕ => ((Real.exp (-40 * ((l : ℝ) / s.lmax) ^ 16) * Real.exp (-40 * ((m : ℝ) / s.lmax) ^ 16) : ℝ) : ℂ) * triC ((1 + r) / 3) (-(1 + r) / 3) ((1 + r) / 12) l m)
          = triC ((1 + r) / 3) (a * (-(1 + r) / 3)) (a * a * ((1 + r) / 12)) := by
        funext l m
        rw [hl]
        unfold triC
        by_cases h0 : l = 0 ∧ m = 0
        · rw [if_pos h0, if_pos h0, h0.1, h0.2]
          norm_num
        · rw [if_neg h0, if_neg h0]
          by_cases h2 : l = 2 ∧ m = 0
          · rw [if_pos h2, if_pos h2, h2.1, h2.2, ← ha, ← Complex.ofReal_mul]
            congr 1
            rw [Nat.cast_zero, zero_div, zero_pow (by norm_num), mul_zero, Real.exp_zero]
            ring
          · rw [if_neg h2, if_neg h2]
            by_cases h3 : l = 2 ∧ m = 2
            · rw [if_pos h3, if_pos h3, h3.1, h3.2, ← ha, ← Complex.ofReal_mul]
              congr 1
              ring
            · rw [if_neg h3, if_neg h3, mul_zero]
      rw [hco] at w2
      have w3 := rep_samples hw hm w2
      rw [e1, e2, hl, hM] at w3
      refine ⟨w3.1, fun it ip i1 i2 => ?_⟩
      rw [w3.2 it ip i1 i2, fieldR_tri _ _ _ (by norm_num) (by norm_num), hsn, hc]
      congr 1
      ring)
  unfold sphere_filter_is_TVD
  rw [b1, b2.mpr]
  rw [hU, variation_tri sn0 _ _ _ _ (fun ip => by have := (c1 ip).1; nlinarith) (by positivity), variation_tri sn0 _ _ _ _ (fun ip => by linarith [(c1 ip).1]) (by norm_num)]
  have hS : -1 ≤ ∑ ip ∈ Finset.range 95, c ip := by rw [hc]; exact cos2_sum
  have hP1 : 0 < ∑ it ∈ Finset.range 33, sn it := by
    refine Finset.sum_pos' (fun i _ => sn0 i) ⟨0, by simp, ?_⟩
    rw [hsn]
    have := hm.inside 0 (by norm_num)
    beta_reduce
    rw [Real.sin_arccos, Real.sq_sqrt (by nlinarith)]
    nlinarith
  have hP2 : 0 < ∑ ip ∈ Finset.range 95, |c ip - c (ip + 1)| := by
    refine Finset.sum_pos' (fun i _ => abs_nonneg _) ⟨0, by simp, ?_⟩
    rw [abs_pos, hc]
    beta_reduce
    have e0 : phiN 96 0 = 0 := by unfold phiN; simp
    rw [e0, Real.cos_zero]
    have hs : 0 < Real.sin (phiN 96 (0 + 1)) := by
      refine Real.sin_pos_of_pos_of_lt_pi ?_ ?_ <;> unfold phiN <;> have := Real.pi_pos
      · positivity
      · push_cast
        linarith
    have h2 := Real.sin_sq_add_cos_sq (phiN 96 (0 + 1))
    have h3 : 0 < Real.sin (phiN 96 (0 + 1)) ^ 2 := by positivity
    intro h
    linarith
  have hT : 0 ≤ ∑ it ∈ Finset.range 33, |sn it - sn (it + 1)| := Finset.sum_nonneg fun _ _ => abs_nonneg _
  have hP := mul_pos hP1 hP2
  generalize (∑ it ∈ Finset.range 33, sn it) * ∑ ip ∈ Finset.range 95, |c ip - c (ip + 1)| = P at *
  generalize ∑ it ∈ Finset.range 33, |sn it - sn (it + 1)| = T at *
  generalize ∑ ip ∈ Finset.range 95, c ip = S at *
  have k0 : 0 < |1 + r| / 2 := by
    rw [abs_of_nonneg (by linarith)]
    linarith
  refine mul_lt_mul_of_pos_left ?_ k0
  have aa : a * a < 1 := by nlinarith
  have hle : 95 * a + a * a * S ≤ 95 * 1 + 1 * S := by nlinarith [mul_nonneg (sub_nonneg.mpr aa.le) (by linarith : 0 ≤ S + 1)]
  have := mul_le_mul_of_nonneg_left hle hT
  have := mul_lt_mul_of_pos_right aa hP
  linarith

/-- The libraries the theorems above speak of exist, for both storage orders. -/
example : ∃ (sht : Shtns CR) (x : ℕ → ℝ) (A : ℕ → ℕ → ℕ → ℝ), sht.Api 32 16 34 96 ∧ sht.Math true 34 96 x A := by
  obtain ⟨t, x, A, h1, h2⟩ := exists_shtns true (by norm_num : 16 ≤ 32) (by norm_num : 32 < 34) (by norm_num : 2 * 16 < 96)
  exact ⟨t, x, A, h1, h2⟩

end SFK
