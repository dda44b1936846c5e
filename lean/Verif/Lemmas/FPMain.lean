import Verif.Lemmas.FPRun
/-
From families of runs to bounds for one run.
-/
namespace SFK
open Scalar CR Filter Asymptotics Topology

/-- an event along the filter of finer and larger formats -/
theorem fine_event {ι : Type*} {φ : ι → Format} {p : ι → Prop}
    (h : ∀ᶠ i in comap (fun i => (φ i).eps) (𝓝 0) ⊓ comap (fun i => (φ i).Omega) atTop, p i) :
    ∃ ε Ω : ℝ, 0 < ε ∧ ∀ i, (φ i).eps ≤ ε → Ω ≤ (φ i).Omega → p i := by
  obtain ⟨s, hs, t, ht, e⟩ := mem_inf_iff.mp h
  obtain ⟨s', hs', es⟩ := mem_comap.mp hs
  obtain ⟨t', ht', et⟩ := mem_comap.mp ht
  obtain ⟨δ, hδ, bs⟩ := Metric.mem_nhds_iff.mp hs'
  obtain ⟨Ω, hΩ⟩ := mem_atTop_sets.mp ht'
  refine ⟨δ / 2, Ω, by linarith, fun i h1 h2 => ?_⟩
  have : i ∈ s ∩ t := by
    refine ⟨es (bs ?_), et (hΩ _ h2)⟩
    rw [Metric.mem_ball, dist_zero_right, Real.norm_eq_abs, abs_of_nonneg (φ i).eps_nonneg]
    linarith
  rw [← e] at this
  exact this

theorem fine_filter {ι : Type*} (φ : ι → Format) : Fine (comap (fun i => (φ i).eps) (𝓝 0) ⊓ comap (fun i => (φ i).Omega) atTop) φ :=
  ⟨tendsto_comap.mono_left inf_le_left, tendsto_comap.mono_left inf_le_right⟩

theorem Format.Close.mono {φ : Format} {a b : ℝ} (hab : a ≤ b) {x : φ.T} {X : CR} (h : φ.Close a x X) : φ.Close b x X := by
  obtain ⟨y, r, h1, h2, h3⟩ := h
  exact ⟨y, r, h1, h2, h3.trans (mul_le_mul_of_nonneg_right hab φ.eps_nonneg)⟩

section
variable {ι : Type*} {l : Filter ι} {φ : ι → Format}

theorem NearF.close {x : ∀ i, (φ i).T} {X : CR} (h : NearF l φ x X) : ∃ C, 0 ≤ C ∧ ∀ᶠ i in l, (φ i).Close C (x i) X := by
  obtain ⟨r, rfl, a, h1, h2⟩ := h.conv
  obtain ⟨C, hC, hb⟩ := h2.exists_nonneg
  refine ⟨C, hC, ?_⟩
  filter_upwards [h1, hb.bound] with i k1 k2
  refine ⟨a i, r, k1, rfl, ?_⟩
  rw [Real.norm_eq_abs, Real.norm_eq_abs, abs_of_nonneg (φ i).eps_nonneg] at k2
  exact k2

theorem NearFL.close {n : ℕ} {v : ∀ i, List (φ i).T} {V : List CR} (h : NearFL l φ n v V) :
    ∃ C, 0 ≤ C ∧ ∀ᶠ i in l, (φ i).CloseL C (v i) V := by
  have hc : ∀ k, ∃ C, 0 ≤ C ∧ (k < n → ∀ᶠ i in l, (φ i).Close C (SFK.gv (v i) k) (SFK.gv V k)) := by
    intro k
    by_cases hk : k < n
    · obtain ⟨C, h0, h1⟩ := (h.2.2 k hk).close
      exact ⟨C, h0, fun _ => h1⟩
    · exact ⟨0, le_refl _, fun hh => absurd hh hk⟩
  choose C h0 h1 using hc
  refine ⟨∑ k ∈ Finset.range n, C k, Finset.sum_nonneg fun k _ => h0 k, ?_⟩
  have h2 : ∀ᶠ i in l, ∀ k ∈ Finset.range n, (φ i).Close (C k) (SFK.gv (v i) k) (SFK.gv V k) :=
    (Finset.eventually_all _).mpr fun k hk => h1 k (Finset.mem_range.mp hk)
  filter_upwards [h2] with i h2
  refine ⟨by rw [h.1 i, h.2.1], fun k hk => ?_⟩
  rw [h.2.1] at hk
  have hk' := Finset.mem_range.mpr hk
  exact (h2 k hk').mono (Finset.single_le_sum (f := C) (fun k _ => h0 k) hk')

end

/-- all floating-point runs beside an exact one, in all formats, with their initial data -/
structure FPRun (κ : ℝ) (M : LibMats) (E0 : Env CR) (P0 : ParamRec CR) (n : ℕ) (F Q : List CR) where
  φ : Format
  E : Env φ.T
  P : ParamRec φ.T
  g : Grid φ.T
  e : Eom φ.T
  f : List φ.T
  p : List φ.T
  run : φ.Run κ M E0 P0 E P g e
  hf : φ.CloseL κ f F
  hp : φ.CloseL κ p Q

theorem CloseL.near {ι : Type*} {l : Filter ι} {φ : ι → Format} {κ : ℝ} {n : ℕ} {v : ∀ i, List (φ i).T} {V : List CR} (hV : V.length = n)
    (hfin : AllFin V) (h : ∀ i, (φ i).CloseL κ (v i) V) : NearFL l φ n v V := by
  refine ⟨fun i => by rw [(h i).1, hV], hV, fun k hk => NearF.of_close (fun i => (h i).2 k (by rw [hV]; exact hk)) ?_⟩
  obtain ⟨r, hr⟩ := hfin (gv V k) (by
    unfold gv
    rw [List.getElem?_eq_getElem (by rw [hV]; exact hk), Option.getD_some]
    exact List.getElem_mem _)
  exact ⟨r, hr⟩

end SFK
