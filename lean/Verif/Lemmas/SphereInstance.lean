import Verif.Lemmas.SphereMath
import Verif.Lemmas.GridIndex
import Mathlib.LinearAlgebra.Basis.VectorSpace
import Mathlib.LinearAlgebra.StdBasis
import Mathlib.Algebra.Polynomial.Roots
/-
The SHTns contract of Spec/SphereMath.lean can be met, for all sizes with `mmax≤lmax<nlat`, `2*mmax<nphi`: the
hypotheses of the theorems about the spherical operators are satisfiable.
-/
namespace SFK
open Scalar CR Polynomial

theorem legP_coeff_top (l : ℕ) : (legP l).coeff l ≠ 0 := by
  unfold legP
  rw [coeff_C_mul, coeff_iterate_derivative]
  have hmon : ((X ^ 2 - 1 : ℝ[X]) ^ l).coeff (l + l) = 1 := by
    have h1 : (X ^ 2 - 1 : ℝ[X]).Monic := by
      have := monic_X_pow_sub_C (1 : ℝ) (n := 2) (by norm_num)
      simpa using this
    have hd : (X ^ 2 - 1 : ℝ[X]).natDegree = 2 := by
      have := natDegree_X_pow_sub_C (n := 2) (r := (1 : ℝ))
      simpa using this
    have h2 := h1.pow l
    have h3 : ((X ^ 2 - 1 : ℝ[X]) ^ l).natDegree = l + l := by rw [h1.natDegree_pow, hd]; ring
    rw [← h3]; exact h2.coeff_natDegree
  rw [hmon]
  have : ((l + l).descFactorial l : ℝ) ≠ 0 := by
    have : 0 < (l + l).descFactorial l := Nat.descFactorial_pos.mpr (by omega)
    exact_mod_cast this.ne'
  simp [this]
  positivity

theorem nrmY_pos (l m : ℕ) : 0 < nrmY l m := by
  unfold nrmY
  apply Real.sqrt_pos.mpr
  have := Real.pi_pos
  positivity

/-- A combination of polar functions of order `m` that vanishes at more than `L` nodes is trivial. -/
theorem polar_indep {L m nlat : ℕ} {x : ℕ → ℝ} (hL : L < nlat) (hin : ∀ it, it < nlat → -1 < x it ∧ x it < 1)
    (hinj : ∀ i j, i < nlat → j < nlat → x i = x j → i = j) (a : ℕ → ℝ)
    (h : ∀ it, it < nlat → ∑ l ∈ Finset.Icc m L, a l * ThN l m (Real.arccos (x it)) = 0) :
    ∀ l, m ≤ l → l ≤ L → a l = 0 := by
  -- the polynomial
  set P : ℝ[X] := ∑ l ∈ Finset.Icc m L, C (a l * nrmY l m) * derivative^[m] (legP l) with hP
  have heval : ∀ it, it < nlat → P.eval (x it) = 0 := by
    intro it hit
    have hx := hin it hit
    have h1 := h it hit
    have hcos : Real.cos (Real.arccos (x it)) = x it := Real.cos_arccos hx.1.le hx.2.le
    have hsin : Real.sin (Real.arccos (x it)) ≠ 0 := by
      rw [Real.sin_arccos]
      have : 0 < 1 - x it ^ 2 := by nlinarith [hx.1, hx.2]
      exact (Real.sqrt_pos.mpr this).ne'
    have h2 : ∑ l ∈ Finset.Icc m L, a l * ThN l m (Real.arccos (x it))
        = (-1) ^ m * Real.sin (Real.arccos (x it)) ^ m * P.eval (x it) := by
      rw [hP, eval_finsetSum, Finset.mul_sum]
      apply Finset.sum_congr rfl
      intro l _
      unfold ThN
      rw [hcos, eval_mul, eval_C]
      ring
    rw [h2] at h1
    rcases mul_eq_zero.mp h1 with h3 | h3
    · rcases mul_eq_zero.mp h3 with h4 | h4
      · exact absurd h4 (pow_ne_zero _ (by norm_num))
      · exact absurd h4 (pow_ne_zero _ hsin)
    · exact h3
  have hdeg : P.natDegree ≤ L := by
    rw [hP]
    apply natDegree_sum_le_of_forall_le
    intro l hl
    rw [Finset.mem_Icc] at hl
    refine (natDegree_C_mul_le _ _).trans ((natDegree_iterate_derivative _ _).trans ?_)
    have := legP_natDegree_le l
    omega
  have hP0 : P = 0 := by
    by_contra hne
    have hcard : (Finset.image x (Finset.range nlat)).card ≤ P.natDegree := by
      apply Polynomial.card_le_degree_of_subset_roots
      intro y hy
      rw [Finset.mem_val, Finset.mem_image] at hy
      obtain ⟨it, hit, rfl⟩ := hy
      rw [mem_roots hne]
      exact heval it (Finset.mem_range.mp hit)
    rw [Finset.card_image_of_injOn (by
      intro i hi j hj hij
      exact hinj i j (by simpa using hi) (by simpa using hj) hij), Finset.card_range] at hcard
    omega
  -- leading coefficients
  by_contra hex
  push Not at hex
  obtain ⟨l0, h1, h2, h3⟩ := hex
  -- the largest `l` with non-zero coefficient
  have hfin : (Finset.filter (fun l => a l ≠ 0) (Finset.Icc m L)).Nonempty :=
    ⟨l0, by rw [Finset.mem_filter, Finset.mem_Icc]; exact ⟨⟨h1, h2⟩, h3⟩⟩
  obtain ⟨k, hk, hkmax⟩ := (Finset.filter (fun l => a l ≠ 0) (Finset.Icc m L)).exists_max_image id hfin
  rw [Finset.mem_filter, Finset.mem_Icc] at hk
  have hc : P.coeff (k - m) = 0 := by rw [hP0]; simp
  rw [hP, finsetSum_coeff] at hc
  rw [Finset.sum_eq_single k] at hc
  · rw [coeff_C_mul, coeff_iterate_derivative, show k - m + m = k by omega] at hc
    have hd : (k.descFactorial m : ℝ) ≠ 0 := by
      have : 0 < k.descFactorial m := Nat.descFactorial_pos.mpr hk.1.1
      exact_mod_cast this.ne'
    have := nrmY_pos k m
    have ht := legP_coeff_top k
    simp only [nsmul_eq_mul] at hc
    rcases mul_eq_zero.mp hc with h4 | h4
    · rcases mul_eq_zero.mp h4 with h5 | h5
      · exact hk.2 h5
      · linarith
    · rcases mul_eq_zero.mp h4 with h5 | h5
      · exact hd h5
      · exact ht h5
  · intro l hl hne
    rw [Finset.mem_Icc] at hl
    by_cases hal : a l = 0
    · rw [hal]; simp
    · have hle : l ≤ k := hkmax l (by rw [Finset.mem_filter, Finset.mem_Icc]; exact ⟨hl, hal⟩)
      rw [coeff_C_mul, coeff_iterate_derivative]
      have : (legP l).coeff (k - m + m) = 0 := by
        apply coeff_eq_zero_of_natDegree_lt
        have := legP_natDegree_le l
        omega
      rw [this]; simp
  · intro hk'
    exact absurd (Finset.mem_Icc.mpr hk.1) hk'

/-- Exact quadrature weights exist. -/
theorem exists_quad {L nlat : ℕ} {x : ℕ → ℝ} (hL : L < nlat) (hin : ∀ it, it < nlat → -1 < x it ∧ x it < 1)
    (hinj : ∀ i j, i < nlat → j < nlat → x i = x j → i = j) (w : ℝ) (m : ℕ) :
    ∃ B : ℕ → ℕ → ℝ, ∀ l l', m ≤ l → l ≤ L → m ≤ l' → l' ≤ L →
      ∑ it ∈ Finset.range nlat, B l it * ThN l' m (Real.arccos (x it)) = if l = l' then w else 0 := by
  -- the sampled polar functions as vectors
  let e : {l // m ≤ l ∧ l ≤ L} → (Fin nlat → ℝ) := fun l it => ThN l.1 m (Real.arccos (x it))
  let _ : Fintype {l // m ≤ l ∧ l ≤ L} := Fintype.subtype (Finset.Icc m L) (by intro l; exact Finset.mem_Icc)
  have hli : LinearIndependent ℝ e := by
    rw [Fintype.linearIndependent_iff]
    intro g hg l
    let a : ℕ → ℝ := fun k => if hk : m ≤ k ∧ k ≤ L then g ⟨k, hk⟩ else 0
    have := polar_indep (L := L) (m := m) hL hin hinj a (by
      intro it hit
      have h1 := congrFun hg ⟨it, hit⟩
      simp only [Finset.sum_apply, Pi.smul_apply, smul_eq_mul, Pi.zero_apply, e] at h1
      rw [← h1]
      apply Finset.sum_bij (fun k hk => (⟨k, Finset.mem_Icc.mp hk⟩ : {l // m ≤ l ∧ l ≤ L}))
      · intro _ _; exact Finset.mem_univ _
      · intro k _ k' _ h; exact congrArg Subtype.val h
      · intro b _; exact ⟨b.1, Finset.mem_Icc.mpr b.2, rfl⟩
      · intro k hk
        simp only [a]
        rw [dif_pos (Finset.mem_Icc.mp hk)]) l.1 l.2.1 l.2.2
    simp only [a] at this
    rw [dif_pos l.2] at this
    exact this
  obtain ⟨g, hg⟩ := LinearMap.exists_leftInverse_of_injective (Fintype.linearCombination ℝ e) (by
    rw [LinearMap.ker_eq_bot]
    exact hli.fintypeLinearCombination_injective)
  refine ⟨fun l it => if hl : m ≤ l ∧ l ≤ L then (if hit : it < nlat then
    w * g (Pi.single ⟨it, hit⟩ 1) ⟨l, hl⟩ else 0) else 0, ?_⟩
  intro l l' h1 h2 h3 h4
  have hcomp : g (e ⟨l', h3, h4⟩) ⟨l, h1, h2⟩ = if l = l' then 1 else 0 := by
    have := congrArg (fun f => f (Pi.single ⟨l', h3, h4⟩ 1) ⟨l, h1, h2⟩) hg
    simp only [LinearMap.comp_apply, LinearMap.id_apply, Fintype.linearCombination_apply_single, one_smul] at this
    rw [this, Pi.single_apply]
    simp [Subtype.ext_iff]
  have hexp : e ⟨l', h3, h4⟩ = ∑ it : Fin nlat, e ⟨l', h3, h4⟩ it • (Pi.single it (1 : ℝ) : Fin nlat → ℝ) := by
    exact (pi_eq_sum_univ' _)
  rw [hexp, map_sum, Finset.sum_apply] at hcomp
  simp only [map_smul, Pi.smul_apply, smul_eq_mul] at hcomp
  simp only [dif_pos (show m ≤ l ∧ l ≤ L from ⟨h1, h2⟩)]
  have hsum : ∑ it ∈ Finset.range nlat, (if hit : it < nlat then w * g (Pi.single ⟨it, hit⟩ 1) ⟨l, h1, h2⟩ else 0)
        * ThN l' m (Real.arccos (x it))
      = w * ∑ it : Fin nlat, e ⟨l', h3, h4⟩ it * g (Pi.single it 1) ⟨l, h1, h2⟩ := by
    rw [Finset.sum_range, Finset.mul_sum]
    apply Finset.sum_congr rfl
    intro it _
    rw [dif_pos it.2]
    simp only [e, Fin.eta]
    ring
  rw [hsum, hcomp]
  split_ifs <;> simp

/-! ### A library that meets the contract -/

/-- finite part -/
noncomputable def CR.val : CR → ℝ
  | .fin x => x
  | .bad => 0

noncomputable def rdCx (z : Cx CR) : ℂ := ⟨z.re.val, z.im.val⟩

@[simp] theorem rdCx_toCx (z : ℂ) : rdCx (toCx z) = z := rfl

def decIt (contig : Bool) (nlat nphi k : ℕ) : ℕ := if contig then k % nlat else k / nphi
def decIp (contig : Bool) (nlat nphi k : ℕ) : ℕ := if contig then k / nlat else k % nphi

theorem dec_spos {contig : Bool} {nlat nphi it ip : ℕ} (h1 : it < nlat) (h2 : ip < nphi) :
    decIt contig nlat nphi (spos contig nlat nphi it ip) = it ∧ decIp contig nlat nphi (spos contig nlat nphi it ip) = ip := by
  unfold decIt decIp spos
  cases contig
  · simp only [Bool.false_eq_true, if_false]
    have := Dims.div_mod_lemma (b := nphi) (i := it) h2
    exact ⟨this.1, this.2⟩
  · simp only [if_true]
    have := Dims.div_mod_lemma (b := nlat) (i := ip) h1
    exact ⟨this.2, this.1⟩

/-- sizes and nodes only -/
noncomputable def sht00 (L M nlat nphi : ℕ) (x : ℕ → ℝ) : Shtns CR where
  lmax := L
  mmax := M
  nlm := (M + 1) * (L + 1) - M * (M + 1) / 2
  nspat := nlat * nphi
  nphi := nphi
  mres := 1
  ct := tab nlat fun it => fin (x it)
  spatToSH := fun _ => []
  shToSpat := fun _ => []
  spatToSHC := fun _ => []
  shToSpatC := fun _ => []
  clobR := id
  clobY := id

/-- the reference implementation: direct summation -/
noncomputable def sht0 (contig : Bool) (L M nlat nphi : ℕ) (x : ℕ → ℝ) (A : ℕ → ℕ → ℕ → ℝ) : Shtns CR :=
  { sht00 L M nlat nphi x with
    spatToSH := fun v => (sht00 L M nlat nphi x).mkLM fun l m =>
      toCx (∑ it ∈ Finset.range nlat, (A l m it : ℂ) * ∑ ip ∈ Finset.range nphi,
        (((gv v (spos contig nlat nphi it ip)).val : ℝ) : ℂ) * Complex.exp (-(Complex.I * m * phiN nphi ip)))
    shToSpat := fun q => tab (nlat * nphi) fun k =>
      fin (fieldR L M (fun l m => rdCx ((sht00 L M nlat nphi x).cf q l m)) (Real.arccos (x (decIt contig nlat nphi k)))
        (phiN nphi (decIp contig nlat nphi k)))
    spatToSHC := fun v => (sht00 L M nlat nphi x).mkC fun l m =>
      toCx (∑ it ∈ Finset.range nlat, (wtZ A l m it : ℂ)
        * ∑ ip ∈ Finset.range nphi, rdCx (gv v (spos contig nlat nphi it ip)) * Complex.exp (-(Complex.I * m * phiN nphi ip)))
    shToSpatC := fun q => tab (nlat * nphi) fun k =>
      toCx (fieldC L (cutC M fun l m => rdCx ((sht00 L M nlat nphi x).cfC q l m)) (Real.arccos (x (decIt contig nlat nphi k)))
        (phiN nphi (decIp contig nlat nphi k))) }

theorem fieldR_congr {L M : ℕ} {c c' : ℕ → ℕ → ℂ} (h : ∀ l m, l ≤ L → m ≤ l → m ≤ M → c l m = c' l m) (θ φ : ℝ) :
    fieldR L M c θ φ = fieldR L M c' θ φ := by
  unfold fieldR
  apply Finset.sum_congr rfl
  intro l hl
  rw [Finset.mem_range] at hl
  rw [h l 0 (by omega) (by omega) (by omega)]
  congr 3
  apply Finset.sum_congr rfl
  intro m hm
  rw [Finset.mem_Icc] at hm
  rw [h l m (by omega) (by omega) (by omega)]

theorem fieldC_congr {L : ℕ} {c c' : ℕ → ℤ → ℂ} (h : ∀ (l : ℕ) (m : ℤ), l ≤ L → -(l : ℤ) ≤ m → m ≤ l → c l m = c' l m)
    (θ φ : ℝ) : fieldC L c θ φ = fieldC L c' θ φ := by
  unfold fieldC
  apply Finset.sum_congr rfl
  intro l hl
  rw [Finset.mem_range] at hl
  apply Finset.sum_congr rfl
  intro m hm
  rw [Finset.mem_Icc] at hm
  rw [h l m (by omega) hm.1 hm.2]

theorem sht0_api (contig : Bool) {L M nlat nphi : ℕ} (x : ℕ → ℝ) (A : ℕ → ℕ → ℕ → ℝ) (hM : M ≤ L) :
    (sht0 contig L M nlat nphi x A).Api L M nlat nphi where
  lmax_eq := rfl
  mmax_eq := rfl
  m_le := hM
  nlm_eq := rfl
  nspat_eq := rfl
  nphi_eq := rfl
  mres_eq := rfl
  ct_len := by simp [sht0, sht00]
  len_spatToSH := by intro v _; simp only [sht0, Shtns.mkLM_length]
  len_shToSpat := by intro v _; simp [sht0, sht00]
  len_spatToSHC := by intro v _; simp only [sht0, Shtns.mkC_length]; rfl
  len_shToSpatC := by intro v _; simp [sht0, sht00]
  len_clobR := by intro v; rfl
  len_clobY := by intro v; rfl

theorem sht00_cf {contig : Bool} {L M nlat nphi : ℕ} {x : ℕ → ℝ} {A : ℕ → ℕ → ℕ → ℝ} :
    (sht00 L M nlat nphi x).cf = (sht0 contig L M nlat nphi x A).cf := rfl

theorem sht0_math (contig : Bool) {L M nlat nphi : ℕ} {x : ℕ → ℝ} {A : ℕ → ℕ → ℕ → ℝ} (hM : M ≤ L)
    (hin : ∀ it, it < nlat → -1 < x it ∧ x it < 1) (hp : 2 * M < nphi)
    (hq : ∀ m l l', m ≤ M → m ≤ l → l ≤ L → m ≤ l' → l' ≤ L →
      ∑ it ∈ Finset.range nlat, A l m it * ThN l' m (Real.arccos (x it)) = if l = l' then 1 / (nphi : ℝ) else 0) :
    (sht0 contig L M nlat nphi x A).Math contig nlat nphi x A where
  ct := by intro it hit; simp only [sht0, sht00]; rw [gv_tab hit]
  inside := hin
  nphi_gt := hp
  quad := hq
  syn := by
    intro q c hc it ip h1 h2
    simp only [sht0, sht00]
    rw [gv_tab (spos_lt h1 h2), (dec_spos h1 h2).1, (dec_spos h1 h2).2]
    congr 1
    apply fieldR_congr
    intro l m a b c'
    have := hc.2 l m ⟨b, a, c'⟩
    change rdCx ((sht0 contig L M nlat nphi x A).cf q l m) = _
    rw [this, rdCx_toCx]
  synC := by
    intro q c hc it ip h1 h2
    simp only [sht0, sht00]
    rw [gv_tab (spos_lt h1 h2), (dec_spos h1 h2).1, (dec_spos h1 h2).2]
    congr 1
    apply fieldC_congr
    intro l m a b c'
    unfold cutC
    by_cases hmM : |m| ≤ (M : ℤ)
    · rw [if_pos hmM, if_pos hmM]
      have := hc.2 l m ⟨a, by rw [abs_le]; exact ⟨b, c'⟩, hmM⟩
      change rdCx ((sht0 contig L M nlat nphi x A).cfC q l m) = _
      rw [this, rdCx_toCx]
    · rw [if_neg hmM, if_neg hmM]
  ana := by
    intro v u hv hu l m hr
    have key := (sht0_api contig x A hM : (sht0 contig L M nlat nphi x A).Api L M nlat nphi).cf_mkLM
      (F := fun l m => toCx (∑ it ∈ Finset.range nlat, (A l m it : ℂ) * ∑ ip ∈ Finset.range nphi,
        (((gv v (spos contig nlat nphi it ip)).val : ℝ) : ℂ) * Complex.exp (-(Complex.I * m * phiN nphi ip)))) hr
    refine key.trans ?_
    congr 1
    apply Finset.sum_congr rfl
    intro it hit
    congr 1
    apply Finset.sum_congr rfl
    intro ip hip
    rw [hu it ip (Finset.mem_range.mp hit) (Finset.mem_range.mp hip)]
    rfl
  anaC := by
    intro v u hv hu l m hr
    have key := Shtns.cfC_mkC (s := sht0 contig L M nlat nphi x A) hM
      (F := fun l m => toCx (∑ it ∈ Finset.range nlat, (wtZ A l m it : ℂ) * ∑ ip ∈ Finset.range nphi,
        rdCx (gv v (spos contig nlat nphi it ip)) * Complex.exp (-(Complex.I * m * phiN nphi ip)))) hr
    refine key.trans ?_
    congr 1
    apply Finset.sum_congr rfl
    intro it hit
    congr 1
    apply Finset.sum_congr rfl
    intro ip hip
    rw [hu it ip (Finset.mem_range.mp hit) (Finset.mem_range.mp hip), rdCx_toCx]

/-- For all sizes with `mmax≤lmax<nlat`, `2*mmax<nphi` there is a library meeting the size contract and the
mathematical contract, with distinct polar nodes. -/
theorem exists_shtns_inj (contig : Bool) {L M nlat nphi : ℕ} (hM : M ≤ L) (hL : L < nlat) (hp : 2 * M < nphi) :
    ∃ (s : Shtns CR) (x : ℕ → ℝ) (A : ℕ → ℕ → ℕ → ℝ), s.Api L M nlat nphi ∧ s.Math contig nlat nphi x A ∧
      ∀ i j, i < nlat → j < nlat → x i = x j → i = j := by
  let x : ℕ → ℝ := fun it => (2 * (it : ℝ) + 1) / nlat - 1
  have hn : (0 : ℝ) < nlat := by exact_mod_cast (by omega : 0 < nlat)
  have hin : ∀ it, it < nlat → -1 < x it ∧ x it < 1 := by
    intro it hit
    have h1 : (it : ℝ) + 1 ≤ nlat := by exact_mod_cast hit
    simp only [x]
    constructor
    · have : 0 < (2 * (it : ℝ) + 1) / nlat := by positivity
      linarith
    · have : (2 * (it : ℝ) + 1) / nlat < 2 := by rw [div_lt_iff₀ hn]; linarith
      linarith
  have hinj : ∀ i j, i < nlat → j < nlat → x i = x j → i = j := by
    intro i j _ _ h
    simp only [x, sub_left_inj] at h
    rw [div_left_inj' hn.ne'] at h
    have : (i : ℝ) = j := by linarith
    exact_mod_cast this
  choose B hB using fun m => exists_quad (L := L) hL hin hinj (1 / (nphi : ℝ)) m
  exact ⟨sht0 contig L M nlat nphi x (fun l m it => B m l it), x, fun l m it => B m l it,
    sht0_api contig x _ hM, sht0_math contig hM hin hp (fun m l l' _ a b c d => hB m l l' a b c d), hinj⟩

theorem exists_shtns (contig : Bool) {L M nlat nphi : ℕ} (hM : M ≤ L) (hL : L < nlat) (hp : 2 * M < nphi) :
    ∃ (s : Shtns CR) (x : ℕ → ℝ) (A : ℕ → ℕ → ℕ → ℝ), s.Api L M nlat nphi ∧ s.Math contig nlat nphi x A := by
  obtain ⟨s, x, A, h1, h2, _⟩ := exists_shtns_inj contig hM hL hp
  exact ⟨s, x, A, h1, h2⟩

end SFK
