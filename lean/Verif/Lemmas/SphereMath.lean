import Verif.Spec.SphereMath
import Verif.Lemmas.HarmonicFields
import Verif.Lemmas.Packed
import Mathlib.Algebra.Field.GeomSum
import Mathlib.RingTheory.RootsOfUnity.Complex
/-
Consequences of the SHTns contract: analysis inverts synthesis; real fields as complex fields.
-/
namespace SFK
open Scalar CR

/-- discrete orthogonality of the azimuthal exponentials -/
theorem dft_orth {n : ℕ} (hn : 0 < n) {k : ℤ} (hk : k.natAbs < n) :
    ∑ ip ∈ Finset.range n, Complex.exp (Complex.I * k * phiN n ip) = if k = 0 then (n : ℂ) else 0 := by
  by_cases h0 : k = 0
  · subst h0; simp
  · rw [if_neg h0]
    have hnC : (n : ℂ) ≠ 0 := by exact_mod_cast hn.ne'
    have hterm : ∀ ip : ℕ, Complex.exp (Complex.I * k * phiN n ip)
        = Complex.exp (2 * Real.pi * Complex.I * (k / n)) ^ ip := by
      intro ip
      rw [← Complex.exp_nat_mul]
      congr 1
      unfold phiN
      push_cast
      field_simp
    simp only [hterm]
    have hne : Complex.exp (2 * Real.pi * Complex.I * (k / n)) ≠ 1 := by
      intro h1
      rw [Complex.exp_eq_one_iff] at h1
      obtain ⟨j, hj⟩ := h1
      have h2 : (2 * Real.pi * Complex.I : ℂ) ≠ 0 := Complex.two_pi_I_ne_zero
      have h3 : (k : ℂ) / n = j := by
        have : (2 * Real.pi * Complex.I) * ((k : ℂ) / n) = (2 * Real.pi * Complex.I) * j := by rw [hj]; ring
        exact mul_left_cancel₀ h2 this
      rw [div_eq_iff hnC] at h3
      have h4 : k = j * n := by exact_mod_cast h3
      have hj0 : j ≠ 0 := by rintro rfl; simp at h4; exact h0 h4
      have h5 : k.natAbs = j.natAbs * n := by rw [h4, Int.natAbs_mul]; simp
      have h6 : 1 ≤ j.natAbs := by omega
      nlinarith
    rw [geom_sum_eq hne]
    have : Complex.exp (2 * Real.pi * Complex.I * (k / n)) ^ n = 1 := by
      rw [← Complex.exp_nat_mul, Complex.exp_eq_one_iff]
      exact ⟨k, by field_simp⟩
    rw [this]; simp

theorem wtZ_ThZ (A : ℕ → ℕ → ℕ → ℝ) (l l' : ℕ) (m : ℤ) (it : ℕ) (θ : ℝ) :
    wtZ A l m it * ThZ l' m θ = A l m.natAbs it * ThN l' m.natAbs θ := by
  unfold wtZ ThZ
  by_cases h : 0 ≤ m
  · rw [if_pos h, if_pos h, show m.toNat = m.natAbs by omega]
  · rw [if_neg h, if_neg h, show (-m).toNat = m.natAbs by omega]
    have : ((-1 : ℝ) ^ m.natAbs) * (-1) ^ m.natAbs = 1 := by rw [← mul_pow]; simp
    linear_combination (A l m.natAbs it * ThN l' m.natAbs θ) * this

/-- quadrature analysis of the field with coefficients `d` recovers `d` -/
theorem analysis_fieldC {L M nlat nphi : ℕ} {x : ℕ → ℝ} {A : ℕ → ℕ → ℕ → ℝ} (hM : 2 * M < nphi)
    (quad : ∀ m l l', m ≤ M → m ≤ l → l ≤ L → m ≤ l' → l' ≤ L →
      ∑ it ∈ Finset.range nlat, A l m it * ThN l' m (Real.arccos (x it)) = if l = l' then 1 / (nphi : ℝ) else 0)
    (d : ℕ → ℤ → ℂ) (hd : ∀ l m, l ≤ L → M < m.natAbs → d l m = 0) (l : ℕ) (m : ℤ) (hl : l ≤ L) (hml : m.natAbs ≤ l)
    (hmM : m.natAbs ≤ M) :
    ∑ it ∈ Finset.range nlat, (wtZ A l m it : ℂ) * ∑ ip ∈ Finset.range nphi,
      fieldC L d (Real.arccos (x it)) (phiN nphi ip) * Complex.exp (-(Complex.I * m * phiN nphi ip)) = d l m := by
  have hn : 0 < nphi := by omega
  have hnC : (nphi : ℂ) ≠ 0 := by exact_mod_cast hn.ne'
  -- inner sum
  have inner : ∀ θ, ∑ ip ∈ Finset.range nphi, fieldC L d θ (phiN nphi ip) * Complex.exp (-(Complex.I * m * phiN nphi ip))
      = ∑ l' ∈ Finset.range (L + 1), if m.natAbs ≤ l' then d l' m * (ThZ l' m θ : ℂ) * nphi else 0 := by
    intro θ
    unfold fieldC
    simp only [Finset.sum_mul]
    rw [Finset.sum_comm]
    apply Finset.sum_congr rfl
    intro l' hl'
    rw [Finset.mem_range] at hl'
    rw [Finset.sum_comm]
    have hin : ∀ m' ∈ Finset.Icc (-(l' : ℤ)) l',
        ∑ ip ∈ Finset.range nphi, d l' m' * Ylm l' m' θ (phiN nphi ip) * Complex.exp (-(Complex.I * m * phiN nphi ip))
        = if m' = m then d l' m * (ThZ l' m θ : ℂ) * nphi else 0 := by
      intro m' hm'
      by_cases hbig : M < m'.natAbs
      · have hne : m' ≠ m := by rintro rfl; omega
        rw [if_neg hne]
        apply Finset.sum_eq_zero
        intro ip _
        rw [hd l' m' (by omega) hbig]; simp
      · have hterm : ∀ ip, d l' m' * Ylm l' m' θ (phiN nphi ip) * Complex.exp (-(Complex.I * m * phiN nphi ip))
            = d l' m' * (ThZ l' m' θ : ℂ) * Complex.exp (Complex.I * ((m' - m : ℤ) : ℂ) * phiN nphi ip) := by
          intro ip
          unfold Ylm
          have : Complex.exp (Complex.I * ((m' - m : ℤ) : ℂ) * phiN nphi ip)
              = Complex.exp (Complex.I * m' * phiN nphi ip) * Complex.exp (-(Complex.I * m * phiN nphi ip)) := by
            rw [← Complex.exp_add]; congr 1; push_cast; ring
          rw [this]; ring
        simp only [hterm]
        rw [← Finset.mul_sum, dft_orth hn (by omega)]
        by_cases hmm : m' = m
        · subst hmm; simp
        · rw [if_neg hmm, if_neg (by omega), mul_zero]
    rw [Finset.sum_congr rfl hin]
    rw [Finset.sum_ite_eq']
    by_cases hml' : m.natAbs ≤ l'
    · rw [if_pos hml', if_pos (by rw [Finset.mem_Icc]; omega)]
    · rw [if_neg hml', if_neg (by rw [Finset.mem_Icc]; omega)]
  simp only [inner]
  simp only [Finset.mul_sum]
  rw [Finset.sum_comm]
  have outer : ∀ l' ∈ Finset.range (L + 1),
      ∑ it ∈ Finset.range nlat, (wtZ A l m it : ℂ) * (if m.natAbs ≤ l' then d l' m * (ThZ l' m (Real.arccos (x it)) : ℂ) * nphi else 0)
      = if l' = l then d l m else 0 := by
    intro l' hl'
    rw [Finset.mem_range] at hl'
    by_cases hml' : m.natAbs ≤ l'
    · simp only [if_pos hml']
      have hterm : ∀ it, (wtZ A l m it : ℂ) * (d l' m * (ThZ l' m (Real.arccos (x it)) : ℂ) * nphi)
          = d l' m * nphi * ((A l m.natAbs it * ThN l' m.natAbs (Real.arccos (x it)) : ℝ) : ℂ) := by
        intro it
        rw [← wtZ_ThZ]; push_cast; ring
      simp only [hterm]
      rw [← Finset.mul_sum, ← Complex.ofReal_sum, quad m.natAbs l l' hmM hml hl hml' (by omega)]
      by_cases hll : l = l'
      · subst hll
        simp
        field_simp
      · rw [if_neg hll, if_neg (fun h => hll h.symm)]; simp
    · have hne : l' ≠ l := by rintro rfl; exact hml' hml
      rw [if_neg hne]
      apply Finset.sum_eq_zero
      intro it _
      rw [if_neg hml']; simp
  rw [Finset.sum_congr rfl outer, Finset.sum_ite_eq', if_pos (by rw [Finset.mem_range]; omega)]

theorem extC_zero {M : ℕ} (c : ℕ → ℕ → ℂ) (l : ℕ) (m : ℤ) (h : M < m.natAbs) : extC M c l m = 0 := by
  unfold extC; rw [if_neg (by omega)]

/-- the contract gives the round trip used by the coefficient-level theorems -/
theorem Shtns.Math.roundTrip {s : Shtns CR} {contig : Bool} {lmax mmax nlat nphi : ℕ} {x : ℕ → ℝ}
    {A : ℕ → ℕ → ℕ → ℝ} (h : s.Math contig nlat nphi x A) (ha : s.Api lmax mmax nlat nphi) : s.RoundTrip where
  real := by
    intro v c hr
    obtain ⟨hre, q, hq, hv⟩ := hr
    have hvl : v.length = s.nspat := by rw [hv]; exact ha.len_shToSpat _ hq.1
    refine ⟨ha.len_spatToSH _ hvl, fun l m hres => ?_⟩
    rw [h.ana v _ hvl (by rw [hv]; exact h.syn q c hq) l m hres]
    congr 1
    have key := analysis_fieldC (L := s.lmax) (M := s.mmax) h.nphi_gt h.quad (extC s.mmax c)
      (fun l m _ => extC_zero c l m) l m hres.2.1 (by simpa using hres.1) (by simpa using hres.2.2)
    have hw : ∀ it, wtZ A l (m : ℤ) it = A l m it := by intro it; unfold wtZ; rw [if_pos (by omega)]; simp
    simp only [hw, ← fieldR_eq, Int.cast_natCast] at key
    rw [key]
    unfold extC
    rw [if_pos (by simpa using hres.2.2)]
    by_cases hm : m = 0
    · subst hm
      simp only [Nat.cast_zero, if_true]
      apply Complex.ext
      · simp
      · simp [hre l hres.2.1]
    · rw [if_neg (by omega), if_pos (by omega)]; simp
  cplx := by
    intro v c hr
    obtain ⟨q, hq, hv⟩ := hr
    have hvl : v.length = s.nspat := by rw [hv]; exact ha.len_shToSpatC _ hq.1
    refine ⟨ha.len_spatToSHC _ hvl, fun l m hr => ?_⟩
    rw [h.anaC v _ hvl (by rw [hv]; exact h.synC q c hq) l m hr]
    congr 1
    have h2 := hr.2.1
    have h3 := hr.2.2
    rw [abs_le] at h2 h3
    have key := analysis_fieldC (L := s.lmax) (M := s.mmax) h.nphi_gt h.quad (cutC s.mmax c)
      (fun l m hl hm' => by unfold cutC; rw [if_neg]; rw [abs_le]; omega) l m hr.1 (by omega) (by omega)
    rw [key]
    unfold cutC
    rw [if_pos hr.2.2]

theorem spos_surj {contig : Bool} {nlat nphi k : ℕ} (hk : k < nlat * nphi) :
    ∃ it ip, it < nlat ∧ ip < nphi ∧ spos contig nlat nphi it ip = k := by
  have h1 : 0 < nlat := Nat.pos_of_ne_zero (by rintro rfl; simp at hk)
  have h2 : 0 < nphi := Nat.pos_of_ne_zero (by rintro rfl; simp at hk)
  unfold spos
  cases contig
  · exact ⟨k / nphi, k % nphi, Nat.div_lt_of_lt_mul (by rw [Nat.mul_comm]; exact hk), Nat.mod_lt _ h2, by simpa using Nat.div_add_mod k nphi⟩
  · exact ⟨k % nlat, k / nlat, Nat.mod_lt _ h1, Nat.div_lt_of_lt_mul hk, by simpa using Nat.div_add_mod k nlat⟩

theorem spos_lt {contig : Bool} {nlat nphi it ip : ℕ} (h1 : it < nlat) (h2 : ip < nphi) :
    spos contig nlat nphi it ip < nlat * nphi := by
  unfold spos
  cases contig
  · simp only [Bool.false_eq_true, if_false]; nlinarith
  · simp only [if_true]; nlinarith

/-- every coefficient function has a coefficient array -/
theorem exists_coefsC {s : Shtns CR} (hm : s.mmax ≤ s.lmax) (c : ℕ → ℤ → ℂ) : ∃ q, s.IsCoefsC q c :=
  ⟨s.mkC fun l m => toCx (c l m), by simp, fun _ _ hr => Shtns.cfC_mkC hm hr⟩

theorem cutC_extC (M : ℕ) (c : ℕ → ℕ → ℂ) : cutC M (extC M c) = extC M c := by
  funext l m
  unfold cutC
  split
  · rfl
  · rename_i h
    rw [extC_zero]
    rw [abs_le] at h
    omega

/-- the complex image of a real representable field -/
theorem Shtns.Math.emb {s : Shtns CR} {contig : Bool} {lmax mmax nlat nphi : ℕ} {x : ℕ → ℝ}
    {A : ℕ → ℕ → ℕ → ℝ} (h : s.Math contig nlat nphi x A) (ha : s.Api lmax mmax nlat nphi)
    {v : List CR} {c : ℕ → ℕ → ℂ} (hr : s.Rep v c) : s.RepC (v.map Cx.ofRe) (extC s.mmax c) := by
  obtain ⟨hre, q, hq, hv⟩ := hr
  obtain ⟨q', hq'⟩ := exists_coefsC ha.mmax_le (extC s.mmax c)
  refine ⟨q', hq', ?_⟩
  have hvl : v.length = s.nspat := by rw [hv]; exact ha.len_shToSpat _ hq.1
  have hwl := ha.len_shToSpatC _ hq'.1
  apply list_ext_gv (by simp [hvl, hwl])
  intro k hk
  rw [List.length_map, hvl, ha.nspat_eq] at hk
  obtain ⟨it, ip, h1, h2, rfl⟩ := spos_surj (contig := contig) hk
  rw [h.synC q' _ hq' it ip h1 h2, cutC_extC, ← fieldR_eq]
  have hlt := spos_lt (contig := contig) h1 h2
  have : gv (v.map Cx.ofRe) (spos contig nlat nphi it ip) = Cx.ofRe (gv v (spos contig nlat nphi it ip)) := by
    unfold gv
    rw [List.getElem?_map, List.getElem?_eq_getElem (by rw [hvl, ha.nspat_eq]; exact hlt)]
    rfl
  rw [this, hv, h.syn q c hq it ip h1 h2]
  unfold Cx.ofRe toCx
  simp

end SFK
