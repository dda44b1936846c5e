import Verif.Lemmas.FP
import Verif.Spec.FP
import Verif.Lemmas.LinEom
/-
Arrays and library routines in families of floating-point computations.
-/
namespace SFK
open Scalar CR Filter Asymptotics Topology

variable {ι : Type*} {l : Filter ι} {φ : ι → Format}

/-- converging to a finite exact value -/
def NearF (l : Filter ι) (φ : ι → Format) (x : ∀ i, (φ i).T) (X : CR) : Prop := (∃ r, X = fin r) ∧ Near l φ x X

/-- arrays of length `n` -/
def NearL (l : Filter ι) (φ : ι → Format) (n : ℕ) (v : ∀ i, List (φ i).T) (V : List CR) : Prop :=
  (∀ i, (v i).length = n) ∧ V.length = n ∧ ∀ k, k < n → Near l φ (fun i => gv (v i) k) (gv V k)

/-- arrays of length `n`, with finite exact values -/
def NearFL (l : Filter ι) (φ : ι → Format) (n : ℕ) (v : ∀ i, List (φ i).T) (V : List CR) : Prop :=
  (∀ i, (v i).length = n) ∧ V.length = n ∧ ∀ k, k < n → NearF l φ (fun i => gv (v i) k) (gv V k)

theorem NearFL.nearL {n : ℕ} {v : ∀ i, List (φ i).T} {V : List CR} (h : NearFL l φ n v V) : NearL l φ n v V :=
  ⟨h.1, h.2.1, fun k hk => (h.2.2 k hk).2⟩

theorem NearL.strong {n : ℕ} {v : ∀ i, List (φ i).T} {V : List CR} (h : NearL l φ n v V) (hV : AllFin V) : NearFL l φ n v V :=
  ⟨h.1, h.2.1, fun k hk => ⟨(allFin_iff h.2.1).mp hV k hk, h.2.2 k hk⟩⟩

theorem NearFL.allFin {n : ℕ} {v : ∀ i, List (φ i).T} {V : List CR} (h : NearFL l φ n v V) : AllFin V :=
  (allFin_iff h.2.1).mpr fun k hk => (h.2.2 k hk).1

theorem gv_ge {α : Type} [Inhabited α] {v : List α} {k : ℕ} (h : v.length ≤ k) : gv v k = default := by
  unfold gv
  rw [List.getElem?_eq_none h]
  rfl

theorem NearFL.gv (hF : Fine l φ) {n : ℕ} {v : ∀ i, List (φ i).T} {V : List CR} (h : NearFL l φ n v V) (k : ℕ) :
    NearF l φ (fun i => SFK.gv (v i) k) (SFK.gv V k) := by
  by_cases hk : k < n
  · exact h.2.2 k hk
  · rw [gv_ge (by rw [h.2.1]; omega)]
    have : (fun i => SFK.gv (v i) k) = fun i => (default : (φ i).T) := by
      funext i
      rw [gv_ge (by rw [h.1 i]; omega)]
    rw [this]
    exact ⟨⟨0, default_eq⟩, Near.default hF⟩

theorem NearL.gv (hF : Fine l φ) {n : ℕ} {v : ∀ i, List (φ i).T} {V : List CR} (h : NearL l φ n v V) (k : ℕ) :
    Near l φ (fun i => SFK.gv (v i) k) (SFK.gv V k) := by
  by_cases hk : k < n
  · exact h.2.2 k hk
  · rw [gv_ge (by rw [h.2.1]; omega)]
    have : (fun i => SFK.gv (v i) k) = fun i => (default : (φ i).T) := by
      funext i
      rw [gv_ge (by rw [h.1 i]; omega)]
    rw [this]
    exact Near.default hF

theorem NearL.tab {n : ℕ} {f : ∀ i, ℕ → (φ i).T} {F : ℕ → CR} (h : ∀ k, k < n → Near l φ (fun i => f i k) (F k)) :
    NearL l φ n (fun i => tab n (f i)) (tab n F) := by
  refine ⟨fun i => by simp, by simp, fun k hk => ?_⟩
  rw [gv_tab hk]
  have : (fun i => SFK.gv (SFK.tab n (f i)) k) = fun i => f i k := by funext i; rw [gv_tab hk]
  rw [this]
  exact h k hk

theorem NearFL.tab {n : ℕ} {f : ∀ i, ℕ → (φ i).T} {F : ℕ → CR} (h : ∀ k, k < n → NearF l φ (fun i => f i k) (F k)) :
    NearFL l φ n (fun i => tab n (f i)) (tab n F) := by
  refine ⟨fun i => by simp, by simp, fun k hk => ?_⟩
  rw [gv_tab hk]
  have : (fun i => SFK.gv (SFK.tab n (f i)) k) = fun i => f i k := by funext i; rw [gv_tab hk]
  rw [this]
  exact h k hk

theorem NearF.conv {x : ∀ i, (φ i).T} {X : CR} (h : NearF l φ x X) : ∃ r, X = fin r ∧ Conv l φ x r := by
  obtain ⟨⟨r, hr⟩, h2⟩ := h
  exact ⟨r, hr, h2 r hr⟩

theorem Conv.nearF {x : ∀ i, (φ i).T} {r : ℝ} (h : Conv l φ x r) : NearF l φ x (fin r) := ⟨⟨r, rfl⟩, h.near⟩

/-- rounded data -/
theorem NearF.of_close {κ : ℝ} {x : ∀ i, (φ i).T} {X : CR} (h : ∀ i, (φ i).Close κ (x i) X) (h0 : ∃ r, X = fin r) : NearF l φ x X := by
  obtain ⟨r, rfl⟩ := h0
  refine Conv.nearF ?_
  choose y s h1 h2 h3 using h
  refine ⟨y, Eventually.of_forall h1, IsBigO.of_bound κ (Eventually.of_forall fun i => ?_)⟩
  have := h2 i
  rw [fin_inj] at this
  rw [Real.norm_eq_abs, Real.norm_eq_abs, abs_of_nonneg (φ i).eps_nonneg, this]
  exact h3 i

/-- A library routine that approximates a matrix. -/
theorem lib_rule (hF : Fine l φ) {K : ℝ} {n m : ℕ} {A : ℕ → ℕ → ℝ} {X Y : ι → Type} {X0 Y0 : Type} {inp : ∀ i, X i → List (φ i).T}
    {out : ∀ i, Y i → List (φ i).T} {f : ∀ i, X i → Y i} {inp0 : X0 → List CR} {out0 : Y0 → List CR} {F : X0 → Y0}
    (hf : ∀ i, (φ i).ApproxMat K n m (inp i) (out i) (f i) A) (h0 : IsMat n m inp0 out0 F A) {v : ∀ i, X i} {V : X0}
    (hv : NearFL l φ n (fun i => inp i (v i)) (inp0 V)) (hl : ∀ i, (out i (f i (v i))).length = m) :
    NearFL l φ m (fun i => out i (f i (v i))) (out0 (F V)) := by
  have hc : ∀ k, ∃ r, k < n → gv (inp0 V) k = fin r ∧ Conv l φ (fun i => gv (inp i (v i)) k) r := by
    intro k
    by_cases hk : k < n
    · obtain ⟨r, h⟩ := (hv.2.2 k hk).conv
      exact ⟨r, fun _ => h⟩
    · exact ⟨0, fun h => absurd h hk⟩
  choose U hU using hc
  have hO := h0 V U ⟨hv.2.1, fun k hk => (hU k hk).1⟩
  have hA : ∀ k, ∃ a : ι → ℝ, k < n → (∀ᶠ i in l, (φ i).val (gv (inp i (v i)) k) = some (a i)) ∧
      (fun i => a i - U k) =O[l] fun i => (φ i).eps := by
    intro k
    by_cases hk : k < n
    · obtain ⟨a, h⟩ := (hU k hk).2
      exact ⟨a, fun _ => h⟩
    · exact ⟨fun _ => 0, fun h => absurd h hk⟩
  choose a ha using hA
  have hev : ∀ᶠ i in l, (φ i).Vals n (inp i (v i)) fun k => a k i := by
    have : ∀ᶠ i in l, ∀ k ∈ Finset.range n, (φ i).val (gv (inp i (v i)) k) = some (a k i) := by
      rw [Filter.eventually_all_finset]
      exact fun k hk => (ha k (Finset.mem_range.mp hk)).1
    exact this.mono fun i h => ⟨hv.1 i, fun k hk => h k (Finset.mem_range.mpr hk)⟩
  have ht : Tendsto (fun i => 1 + ∑ j ∈ Finset.range n, |a j i|) l (𝓝 (1 + ∑ j ∈ Finset.range n, |U j|)) := by
    refine Tendsto.const_add 1 (tendsto_finset_sum _ fun j hj => ?_)
    exact (tendsto_of_isBigO hF (ha j (Finset.mem_range.mp hj)).2).abs
  have hbd : ∀ᶠ i in l, K * (1 + ∑ j ∈ Finset.range n, |a j i|) ≤ (φ i).Omega := by
    have h1 : ∀ᶠ i in l, K * (1 + ∑ j ∈ Finset.range n, |a j i|) < K * (1 + ∑ j ∈ Finset.range n, |U j|) + 1 :=
      (ht.const_mul K).eventually (gt_mem_nhds (by linarith))
    filter_upwards [h1, hF.omega.eventually_ge_atTop (K * (1 + ∑ j ∈ Finset.range n, |U j|) + 1)] with i b c
    linarith
  have hex : ∀ᶠ i in l, ∃ w, (φ i).Vals m (out i (f i (v i))) w ∧ ∀ k, k < m →
      |w k - ∑ j ∈ Finset.range n, A k j * a j i| ≤ K * (φ i).eps * (1 + ∑ j ∈ Finset.range n, |a j i|) := by
    filter_upwards [hev, hbd] with i b c using hf i _ _ b c
  classical
  obtain ⟨w, hw⟩ : ∃ w : ι → ℕ → ℝ, ∀ᶠ i in l, (φ i).Vals m (out i (f i (v i))) (w i) ∧ ∀ k, k < m →
      |w i k - ∑ j ∈ Finset.range n, A k j * a j i| ≤ K * (φ i).eps * (1 + ∑ j ∈ Finset.range n, |a j i|) := by
    refine ⟨fun i => if h : ∃ w, (φ i).Vals m (out i (f i (v i))) w ∧ ∀ k, k < m →
      |w k - ∑ j ∈ Finset.range n, A k j * a j i| ≤ K * (φ i).eps * (1 + ∑ j ∈ Finset.range n, |a j i|) then h.choose else fun _ => 0, ?_⟩
    filter_upwards [hex] with i h
    rw [dif_pos h]
    exact h.choose_spec
  refine ⟨hl, hO.1, fun k hk => ?_⟩
  rw [hO.2 k hk]
  refine Conv.nearF ⟨fun i => w i k, hw.mono fun i h => h.1.2 k hk, ?_⟩
  have h1 : (fun i => w i k - ∑ j ∈ Finset.range n, A k j * a j i) =O[l] fun i => (φ i).eps := by
    have h2 : (fun i => w i k - ∑ j ∈ Finset.range n, A k j * a j i) =O[l]
        fun i => (φ i).eps * (1 + ∑ j ∈ Finset.range n, |a j i|) := by
      refine IsBigO.of_bound |K| (hw.mono fun i h => ?_)
      rw [Real.norm_eq_abs, Real.norm_eq_abs, ← abs_mul]
      refine (h.2 k hk).trans (le_of_eq_of_le ?_ (le_abs_self _))
      ring
    simpa using h2.trans ((isBigO_refl (fun i => (φ i).eps) l).mul (ht.isBigO_one ℝ))
  have h3 : (fun i => ∑ j ∈ Finset.range n, A k j * (a j i - U j)) =O[l] fun i => (φ i).eps :=
    IsBigO.fun_sum fun j hj => (ha j (Finset.mem_range.mp hj)).2.const_mul_left (A k j)
  refine (h1.add h3).congr_left fun i => ?_
  simp only [mul_sub, Finset.sum_sub_distrib]
  ring

/-! ## Complex arrays -/

theorem flat_length {α : Type} (z : List (Cx α)) : (flat z).length = 2 * z.length := by
  induction z with
  | nil => rfl
  | cons c z ih => simp only [flat, List.flatMap_cons, List.length_append, List.length_cons, List.length_nil] at ih ⊢; omega

theorem gv_flat {α : Type} [Inhabited α] (z : List (Cx α)) (k : ℕ) :
    gv (flat z) (2 * k) = (gv z k).re ∧ gv (flat z) (2 * k + 1) = (gv z k).im := by
  induction z generalizing k with
  | nil => exact ⟨rfl, rfl⟩
  | cons c z ih =>
    have e : flat (c :: z) = c.re :: c.im :: flat z := rfl
    rw [e]
    cases k with
    | zero => exact ⟨rfl, rfl⟩
    | succ k =>
      obtain ⟨h1, h2⟩ := ih k
      have e1 : 2 * (k + 1) = 2 * k + 1 + 1 := by ring
      rw [e1]
      exact ⟨h1, h2⟩

/-- complex arrays of length `n` with finite exact values -/
def NearC (l : Filter ι) (φ : ι → Format) (n : ℕ) (z : ∀ i, List (Cx (φ i).T)) (Z : List (Cx CR)) : Prop :=
  (∀ i, (z i).length = n) ∧ Z.length = n ∧ ∀ k, k < n →
    NearF l φ (fun i => (gv (z i) k).re) (gv Z k).re ∧ NearF l φ (fun i => (gv (z i) k).im) (gv Z k).im

theorem nearC_iff {n : ℕ} {z : ∀ i, List (Cx (φ i).T)} {Z : List (Cx CR)} :
    NearC l φ n z Z ↔ NearFL l φ (2 * n) (fun i => flat (z i)) (flat Z) := by
  unfold NearC NearFL
  simp only [flat_length]
  have e : ∀ a, 2 * a = 2 * n ↔ a = n := fun a => by omega
  simp only [e]
  refine and_congr_right fun _ => and_congr_right fun _ => ⟨fun h k hk => ?_, fun h k hk => ?_⟩
  · obtain ⟨j, hj | hj⟩ := Nat.even_or_odd' k
    · subst hj
      simp only [(gv_flat _ j).1]
      exact (h j (by omega)).1
    · subst hj
      simp only [(gv_flat _ j).2]
      exact (h j (by omega)).2
  · have h1 := h (2 * k) (by omega)
    have h2 := h (2 * k + 1) (by omega)
    simp only [(gv_flat _ k).1, (gv_flat _ k).2] at h1 h2
    exact ⟨h1, h2⟩

theorem NearC.gv (hF : Fine l φ) {n : ℕ} {z : ∀ i, List (Cx (φ i).T)} {Z : List (Cx CR)} (h : NearC l φ n z Z) (k : ℕ) :
    NearF l φ (fun i => (SFK.gv (z i) k).re) (SFK.gv Z k).re ∧ NearF l φ (fun i => (SFK.gv (z i) k).im) (SFK.gv Z k).im := by
  have := nearC_iff.mp h
  have h1 := this.gv hF (2 * k)
  have h2 := this.gv hF (2 * k + 1)
  simp only [(gv_flat _ k).1, (gv_flat _ k).2] at h1 h2
  exact ⟨h1, h2⟩

theorem NearC.tab {n : ℕ} {f : ∀ i, ℕ → Cx (φ i).T} {F : ℕ → Cx CR}
    (h : ∀ k, k < n → NearF l φ (fun i => (f i k).re) (F k).re ∧ NearF l φ (fun i => (f i k).im) (F k).im) :
    NearC l φ n (fun i => tab n (f i)) (tab n F) := by
  refine ⟨fun i => by simp, by simp, fun k hk => ?_⟩
  simp only [gv_tab hk]
  exact h k hk

end SFK
