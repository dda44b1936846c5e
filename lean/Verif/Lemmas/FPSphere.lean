import Verif.Lemmas.FPLib
/-
The angular and radial operators in families of floating-point computations.
-/
namespace SFK
open Scalar CR Filter Asymptotics Topology

variable {ι : Type*} {l : Filter ι} {φ : ι → Format}

/-- a complex value with finite exact value -/
def NearZ (l : Filter ι) (φ : ι → Format) (z : ∀ i, Cx (φ i).T) (Z : Cx CR) : Prop :=
  NearF l φ (fun i => (z i).re) Z.re ∧ NearF l φ (fun i => (z i).im) Z.im

section scal
variable (hF : Fine l φ)
include hF

theorem NearF.add {x y : ∀ i, (φ i).T} {X Y : CR} (hx : NearF l φ x X) (hy : NearF l φ y Y) : NearF l φ (fun i => x i + y i) (X + Y) := by
  obtain ⟨⟨a, rfl⟩, hx⟩ := hx
  obtain ⟨⟨b, rfl⟩, hy⟩ := hy
  exact ⟨⟨a + b, rfl⟩, hx.add hF hy⟩

theorem NearF.sub {x y : ∀ i, (φ i).T} {X Y : CR} (hx : NearF l φ x X) (hy : NearF l φ y Y) : NearF l φ (fun i => x i - y i) (X - Y) := by
  obtain ⟨⟨a, rfl⟩, hx⟩ := hx
  obtain ⟨⟨b, rfl⟩, hy⟩ := hy
  exact ⟨⟨a - b, rfl⟩, hx.sub hF hy⟩

theorem NearF.mul {x y : ∀ i, (φ i).T} {X Y : CR} (hx : NearF l φ x X) (hy : NearF l φ y Y) : NearF l φ (fun i => x i * y i) (X * Y) := by
  obtain ⟨⟨a, rfl⟩, hx⟩ := hx
  obtain ⟨⟨b, rfl⟩, hy⟩ := hy
  exact ⟨⟨a * b, rfl⟩, hx.mul hF hy⟩

theorem NearF.div {x y : ∀ i, (φ i).T} {X Y : CR} (hx : NearF l φ x X) (hy : NearF l φ y Y) (h0 : Y ≠ fin 0) :
    NearF l φ (fun i => x i / y i) (X / Y) := by
  obtain ⟨⟨a, rfl⟩, hx⟩ := hx
  obtain ⟨⟨b, rfl⟩, hy⟩ := hy
  exact ⟨⟨a / b, fin_div _ _ fun h => h0 (by rw [h])⟩, hx.div hF hy⟩

omit hF in
theorem NearF.neg {x : ∀ i, (φ i).T} {X : CR} (hx : NearF l φ x X) : NearF l φ (fun i => -x i) (-X) := by
  obtain ⟨⟨a, rfl⟩, hx⟩ := hx
  exact ⟨⟨-a, rfl⟩, hx.neg⟩

omit hF in
theorem NearF.fabs {x : ∀ i, (φ i).T} {X : CR} (hx : NearF l φ x X) : NearF l φ (fun i => Scalar.fabs (x i)) (Scalar.fabs X) := by
  obtain ⟨⟨a, rfl⟩, hx⟩ := hx
  exact ⟨⟨|a|, rfl⟩, hx.fabs⟩

theorem NearF.pown {x : ∀ i, (φ i).T} {X : CR} (hx : NearF l φ x X) (k : ℕ) : NearF l φ (fun i => Scalar.pown (x i) k) (Scalar.pown X k) := by
  obtain ⟨⟨a, rfl⟩, hx⟩ := hx
  exact ⟨⟨a ^ k, rfl⟩, hx.pown hF k⟩

theorem NearF.exp {x : ∀ i, (φ i).T} {X : CR} (hx : NearF l φ x X) : NearF l φ (fun i => Scalar.exp (x i)) (Scalar.exp X) := by
  obtain ⟨⟨a, rfl⟩, hx⟩ := hx
  exact ⟨⟨Real.exp a, rfl⟩, hx.exp hF⟩

theorem NearF.cos {x : ∀ i, (φ i).T} {X : CR} (hx : NearF l φ x X) : NearF l φ (fun i => Scalar.cos (x i)) (Scalar.cos X) := by
  obtain ⟨⟨a, rfl⟩, hx⟩ := hx
  exact ⟨⟨Real.cos a, rfl⟩, hx.cos hF⟩

theorem NearF.lit (q : ℚ) : NearF l φ (fun i => (Scalar.lit q : (φ i).T)) (Scalar.lit q : CR) := ⟨⟨q, rfl⟩, Near.lit hF q⟩
theorem NearF.nat (n : ℕ) : NearF l φ (fun i => @OfNat.ofNat (φ i).T n (instOfNatS n)) (@OfNat.ofNat CR n (instOfNatS n)) := NearF.lit hF n
theorem NearF.dbl (n : ℕ) : NearF l φ (fun i => (dbl n : (φ i).T)) (dbl n : CR) := NearF.lit hF n
theorem NearF.tenth (n : ℕ) : NearF l φ (fun i => (tenth n : (φ i).T)) (tenth n : CR) := NearF.lit hF _
theorem NearF.pi : NearF l φ (fun i => (Scalar.pi : (φ i).T)) (Scalar.pi : CR) := ⟨⟨_, rfl⟩, Near.pi hF⟩

theorem NearF.rt {n : ℕ} (hn : 0 < n) : NearF l φ (fun i => (Scalar.rt (SFK.dbl n) : (φ i).T)) (Scalar.rt (SFK.dbl n) : CR) := by
  have h0 : (0 : ℝ) < n := by exact_mod_cast hn
  refine ⟨⟨Real.sqrt n, by rw [fin_dbl, fin_rt _ h0.le]⟩, Near.rt hF (Near.dbl hF n) ?_⟩
  rw [fin_dbl, ne_eq, fin_inj]
  exact h0.ne'

theorem NearZ.smul {x : ∀ i, (φ i).T} {X : CR} {z : ∀ i, Cx (φ i).T} {Z : Cx CR} (hx : NearF l φ x X) (hz : NearZ l φ z Z) :
    NearZ l φ (fun i => Cx.smul (x i) (z i)) (Cx.smul X Z) := ⟨hz.1.mul hF hx, hz.2.mul hF hx⟩

theorem NearZ.smul' {x : ∀ i, (φ i).T} {X : CR} {z : ∀ i, Cx (φ i).T} {Z : Cx CR} (hx : NearF l φ x X) (hz : NearZ l φ z Z) :
    NearZ l φ (fun i => Cx.smul' (x i) (z i)) (Cx.smul' X Z) := ⟨hx.mul hF hz.1, hx.mul hF hz.2⟩

theorem NearZ.mul {w z : ∀ i, Cx (φ i).T} {W' Z : Cx CR} (hw : NearZ l φ w W') (hz : NearZ l φ z Z) :
    NearZ l φ (fun i => Cx.mul (w i) (z i)) (Cx.mul W' Z) :=
  ⟨(hw.1.mul hF hz.1).sub hF (hw.2.mul hF hz.2), (hw.1.mul hF hz.2).add hF (hw.2.mul hF hz.1)⟩

end scal

/-! ## Spheres -/

/-- a family of Sphere objects in finer and finer formats -/
structure SphFam (φ : ι → Format) (K : ℝ) (M : LibMats) (s : ∀ i, Sphere (φ i).T) (s0 : Sphere CR) : Prop where
  wf : ∀ i, (s i).Wf
  wf0 : s0.Wf
  lmax : ∀ i, (s i).lmax = s0.lmax
  mmax : ∀ i, (s i).mmax = s0.mmax
  nlat : ∀ i, (s i).nlat = s0.nlat
  nphi : ∀ i, (s i).nphi = s0.nphi
  ana : ∀ i, (φ i).ApproxMat K (s0.nlat * s0.nphi) (2 * nlmOf s0.lmax s0.mmax) id flat (s i).sht.spatToSH M.ana
  syn : ∀ i, (φ i).ApproxMat K (2 * nlmOf s0.lmax s0.mmax) (s0.nlat * s0.nphi) flat id (s i).sht.shToSpat M.syn
  anaC : ∀ i, (φ i).ApproxMat K (2 * (s0.nlat * s0.nphi)) (2 * ncpOf s0.lmax s0.mmax) flat flat (s i).sht.spatToSHC M.anaC
  synC : ∀ i, (φ i).ApproxMat K (2 * ncpOf s0.lmax s0.mmax) (2 * (s0.nlat * s0.nphi)) flat flat (s i).sht.shToSpatC M.synC
  ana0 : IsMat (s0.nlat * s0.nphi) (2 * nlmOf s0.lmax s0.mmax) id flat s0.sht.spatToSH M.ana
  syn0 : IsMat (2 * nlmOf s0.lmax s0.mmax) (s0.nlat * s0.nphi) flat id s0.sht.shToSpat M.syn
  anaC0 : IsMat (2 * (s0.nlat * s0.nphi)) (2 * ncpOf s0.lmax s0.mmax) flat flat s0.sht.spatToSHC M.anaC
  synC0 : IsMat (2 * ncpOf s0.lmax s0.mmax) (2 * (s0.nlat * s0.nphi)) flat flat s0.sht.shToSpatC M.synC

theorem lmOf_congr {α β : Type} {s : Shtns α} {t : Shtns β} (h1 : s.lmax = t.lmax) (h2 : s.mmax = t.mmax) (k : ℕ) : s.lmOf k = t.lmOf k := by
  unfold Shtns.lmOf Shtns.Res Shtns.LM
  rw [h1, h2]

namespace SphFam
variable {K : ℝ} {M : LibMats} {s : ∀ i, Sphere (φ i).T} {s0 : Sphere CR} (h : SphFam φ K M s s0) (hF : Fine l φ)
include h

theorem nspat (i : ι) : (s i).sht.nspat = s0.nlat * s0.nphi := by rw [(h.wf i).api.nspat_eq, h.nlat, h.nphi]
theorem nlm (i : ι) : (s i).sht.nlm = nlmOf s0.lmax s0.mmax := by rw [(h.wf i).api.nlm_eq, h.lmax, h.mmax]; rfl
theorem nlm0 : s0.sht.nlm = nlmOf s0.lmax s0.mmax := h.wf0.api.nlm_eq
theorem ncp (i : ι) : (s i).sht.ncp = ncpOf s0.lmax s0.mmax := by rw [(h.wf i).ncp_eq, h.lmax, h.mmax]; rfl
theorem ncp0 : s0.sht.ncp = ncpOf s0.lmax s0.mmax := h.wf0.ncp_eq
theorem nSph (i : ι) : (s i).nSph = s0.nlat * s0.nphi := by rw [(h.wf i).nSph_eq, h.nspat]
theorem shtl (i : ι) : (s i).sht.lmax = s0.sht.lmax := by rw [(h.wf i).api.lmax_eq, h.lmax, h.wf0.api.lmax_eq]
theorem shtm (i : ι) : (s i).sht.mmax = s0.sht.mmax := by rw [(h.wf i).api.mmax_eq, h.mmax, h.wf0.api.mmax_eq]

theorem cf (i : ι) (q : List (Cx (φ i).T)) (a b : ℕ) : (s i).sht.cf q a b = gv q (s0.sht.LM a b) := by
  unfold Shtns.cf Shtns.LM
  rw [h.shtl]

include hF

theorem scale {G : ∀ i, ℕ → ℕ → Cx (φ i).T → Cx (φ i).T} {G0 : ℕ → ℕ → Cx CR → Cx CR}
    (hG : ∀ a b, s0.Touched a b → ∀ z Z, NearZ l φ z Z → NearZ l φ (fun i => G i a b (z i)) (G0 a b Z))
    {q : ∀ i, List (Cx (φ i).T)} {Q : List (Cx CR)} (hq : NearC l φ (nlmOf s0.lmax s0.mmax) q Q) :
    NearC l φ (nlmOf s0.lmax s0.mmax) (fun i => (s i).scaleP (G i) (q i)) (s0.scaleP G0 Q) := by
  have e0 : s0.scaleP G0 Q = tab (nlmOf s0.lmax s0.mmax) fun k =>
      if s0.Touched (s0.sht.lmOf k).1 (s0.sht.lmOf k).2 then G0 (s0.sht.lmOf k).1 (s0.sht.lmOf k).2 (gv Q (s0.sht.LM (s0.sht.lmOf k).1 (s0.sht.lmOf k).2))
      else gv Q (s0.sht.LM (s0.sht.lmOf k).1 (s0.sht.lmOf k).2) := by
    unfold Sphere.scaleP Shtns.mkLM
    rw [h.nlm0]
    rfl
  have ei : ∀ i, (s i).scaleP (G i) (q i) = tab (nlmOf s0.lmax s0.mmax) fun k =>
      if s0.Touched (s0.sht.lmOf k).1 (s0.sht.lmOf k).2 then G i (s0.sht.lmOf k).1 (s0.sht.lmOf k).2 (gv (q i) (s0.sht.LM (s0.sht.lmOf k).1 (s0.sht.lmOf k).2))
      else gv (q i) (s0.sht.LM (s0.sht.lmOf k).1 (s0.sht.lmOf k).2) := by
    intro i
    unfold Sphere.scaleP Shtns.mkLM
    rw [h.nlm]
    apply tab_congr
    intro k _
    rw [lmOf_congr (h.shtl i) (h.shtm i) k]
    beta_reduce
    rw [h.cf]
    have : (s i).Touched (s0.sht.lmOf k).1 (s0.sht.lmOf k).2 ↔ s0.Touched (s0.sht.lmOf k).1 (s0.sht.lmOf k).2 := by
      unfold Sphere.Touched
      rw [h.lmax, h.mmax]
    by_cases ht : s0.Touched (s0.sht.lmOf k).1 (s0.sht.lmOf k).2
    · rw [if_pos ht, if_pos (this.mpr ht)]
    · rw [if_neg ht, if_neg (fun hh => ht (this.mp hh))]
  rw [e0, show (fun i => (s i).scaleP (G i) (q i)) = _ from funext ei]
  apply NearC.tab
  intro k _
  have hz := hq.gv hF (s0.sht.LM (s0.sht.lmOf k).1 (s0.sht.lmOf k).2)
  by_cases ht : s0.Touched (s0.sht.lmOf k).1 (s0.sht.lmOf k).2
  · simp only [if_pos ht]
    exact hG _ _ ht (fun i => gv (q i) (s0.sht.LM (s0.sht.lmOf k).1 (s0.sht.lmOf k).2)) _ hz
  · simp only [if_neg ht]
    exact hz

theorem spatToSH {v : ∀ i, List (φ i).T} {V : List CR} (hv : NearFL l φ (s0.nlat * s0.nphi) v V) :
    NearC l φ (nlmOf s0.lmax s0.mmax) (fun i => (s i).sht.spatToSH (v i)) (s0.sht.spatToSH V) := by
  rw [nearC_iff]
  refine lib_rule hF h.ana h.ana0 (v := v) (V := V) hv fun i => ?_
  rw [flat_length, (h.wf i).api.len_spatToSH _ (by rw [hv.1 i, h.nspat]), h.nlm]

theorem shToSpat {q : ∀ i, List (Cx (φ i).T)} {Q : List (Cx CR)} (hq : NearC l φ (nlmOf s0.lmax s0.mmax) q Q) :
    NearFL l φ (s0.nlat * s0.nphi) (fun i => (s i).sht.shToSpat (q i)) (s0.sht.shToSpat Q) := by
  refine lib_rule hF h.syn h.syn0 (v := q) (V := Q) (nearC_iff.mp hq) fun i => ?_
  exact ((h.wf i).api.len_shToSpat _ (by rw [hq.1 i, h.nlm])).trans (h.nspat i)

theorem spatToSHC {v : ∀ i, List (Cx (φ i).T)} {V : List (Cx CR)} (hv : NearC l φ (s0.nlat * s0.nphi) v V) :
    NearC l φ (ncpOf s0.lmax s0.mmax) (fun i => (s i).sht.spatToSHC (v i)) (s0.sht.spatToSHC V) := by
  rw [nearC_iff]
  refine lib_rule hF h.anaC h.anaC0 (v := v) (V := V) (nearC_iff.mp hv) fun i => ?_
  rw [flat_length, (h.wf i).api.len_spatToSHC _ (by rw [hv.1 i, h.nspat]), h.ncp]

theorem shToSpatC {q : ∀ i, List (Cx (φ i).T)} {Q : List (Cx CR)} (hq : NearC l φ (ncpOf s0.lmax s0.mmax) q Q) :
    NearC l φ (s0.nlat * s0.nphi) (fun i => (s i).sht.shToSpatC (q i)) (s0.sht.shToSpatC Q) := by
  rw [nearC_iff]
  refine lib_rule hF h.synC h.synC0 (v := q) (V := Q) (nearC_iff.mp hq) fun i => ?_
  rw [flat_length, (h.wf i).api.len_shToSpatC _ (by rw [hq.1 i, h.ncp]), h.nspat]

theorem thru {G : ∀ i, ℕ → ℕ → Cx (φ i).T → Cx (φ i).T} {G0 : ℕ → ℕ → Cx CR → Cx CR}
    (hG : ∀ a b, s0.Touched a b → ∀ z Z, NearZ l φ z Z → NearZ l φ (fun i => G i a b (z i)) (G0 a b Z))
    {v : ∀ i, List (φ i).T} {V : List CR} (hv : NearFL l φ (s0.nlat * s0.nphi) v V) :
    NearFL l φ (s0.nlat * s0.nphi) (fun i => (s i).thruP (G i) (v i)) (s0.thruP G0 V) :=
  h.shToSpat hF (h.scale hF hG (h.spatToSH hF hv))

theorem lap {v : ∀ i, List (φ i).T} {V : List CR} (hv : NearFL l φ (s0.nlat * s0.nphi) v V) :
    NearFL l φ (s0.nlat * s0.nphi) (fun i => (s i).lapP (v i)) (s0.lapP V) := by
  refine h.thru hF (G := fun i l _ z => Cx.smul (-(dbl l) * (dbl l + 1)) z) (fun a b _ z Z hz => ?_) hv
  exact NearZ.smul hF ((NearF.dbl hF a).neg.mul hF ((NearF.dbl hF a).add hF (NearF.nat hF 1))) hz

theorem phi {v : ∀ i, List (φ i).T} {V : List CR} (hv : NearFL l φ (s0.nlat * s0.nphi) v V) :
    NearFL l φ (s0.nlat * s0.nphi) (fun i => (s i).phiP (v i)) (s0.phiP V) := by
  refine h.thru hF (G := fun i _ m z => Cx.mul z (Cx.mul ⟨0, 1⟩ ⟨dbl m, 0⟩)) (fun a b _ z Z hz => ?_) hv
  exact hz.mul hF (NearZ.mul hF (w := fun i => ⟨0, 1⟩) (z := fun i => ⟨dbl b, 0⟩) (W' := ⟨0, 1⟩) (Z := ⟨dbl b, 0⟩)
    ⟨NearF.nat hF 0, NearF.nat hF 1⟩ ⟨NearF.dbl hF b, NearF.nat hF 0⟩)

theorem low {a : ℕ} (ha : a < s0.lmax) : NearF l φ (fun i => (s i).lowF a) (s0.lowF a) := by
  unfold Sphere.lowF
  simp only [h.lmax]
  refine NearF.exp hF ((NearF.nat hF 40).neg.mul hF (NearF.pown hF ((NearF.dbl hF a).div hF (NearF.dbl hF _) ?_) 16))
  rw [fin_dbl, ne_eq, fin_inj]
  exact_mod_cast (show s0.lmax ≠ 0 by omega)

theorem filt {v : ∀ i, List (φ i).T} {V : List CR} (hv : NearFL l φ (s0.nlat * s0.nphi) v V) :
    NearFL l φ (s0.nlat * s0.nphi) (fun i => (s i).filtP (v i)) (s0.filtP V) := by
  refine h.thru hF (G := fun i l m z => Cx.smul ((s i).lowF l * (s i).lowF m) z) (fun a b ht z Z hz => ?_) hv
  have hb : b < s0.lmax := by
    have := ht.1
    have := ht.2
    omega
  exact NearZ.smul hF ((h.low hF ht.1).mul hF (h.low hF hb)) hz

theorem raise {q : ∀ i, List (Cx (φ i).T)} {Q : List (Cx CR)} (hq : NearC l φ ((s0.lmax + 1) ^ 2) q Q) :
    NearC l φ ((s0.lmax + 1) ^ 2) (fun i => (s i).raiseP (q i)) (s0.raiseP Q) := by
  unfold Sphere.raiseP
  simp only [h.lmax]
  apply NearC.tab
  intro k _
  by_cases h1 : k.sqrt < s0.lmax
  · simp only [if_pos h1]
    by_cases h2 : k = k.sqrt * k.sqrt
    · simp only [if_pos h2]
      exact ⟨NearF.nat hF 0, NearF.nat hF 0⟩
    · simp only [if_neg h2]
      have hb := Sphere.block_of_sqrt k
      have hpos : 0 < (2 * k.sqrt + 1 - (k - k.sqrt * k.sqrt)) * (k - k.sqrt * k.sqrt) := Nat.mul_pos (by omega) (by omega)
      exact NearZ.smul' hF (NearF.rt hF hpos) (hq.gv hF (k - 1))
  · simp only [if_neg h1]
    exact hq.gv hF k

theorem lower {q : ∀ i, List (Cx (φ i).T)} {Q : List (Cx CR)} (hq : NearC l φ ((s0.lmax + 1) ^ 2) q Q) :
    NearC l φ ((s0.lmax + 1) ^ 2) (fun i => (s i).lowerP (q i)) (s0.lowerP Q) := by
  unfold Sphere.lowerP
  simp only [h.lmax]
  apply NearC.tab
  intro k _
  by_cases h1 : k.sqrt < s0.lmax
  · simp only [if_pos h1]
    by_cases h2 : k = k.sqrt * k.sqrt + 2 * k.sqrt
    · simp only [if_pos h2]
      exact ⟨NearF.nat hF 0, NearF.nat hF 0⟩
    · simp only [if_neg h2]
      have hb := Sphere.block_of_sqrt k
      have hpos : 0 < (k - k.sqrt * k.sqrt + 1) * (2 * k.sqrt - (k - k.sqrt * k.sqrt)) := Nat.mul_pos (by omega) (by omega)
      exact NearZ.smul' hF (NearF.rt hF hpos) (hq.gv hF (k + 1))
  · simp only [if_neg h1]
    exact hq.gv hF k

theorem buf {q : ∀ i, List (Cx (φ i).T)} {Q : List (Cx CR)} (hq : NearC l φ (ncpOf s0.lmax s0.mmax) q Q) :
    NearC l φ ((s0.lmax + 1) ^ 2) (fun i => (s i).bufC (q i)) (s0.bufC Q) := by
  have l0 : Q.length = s0.sht.ncp := by rw [hq.2.1, h.ncp0]
  have li : ∀ i, (q i).length = (s i).sht.ncp := fun i => by rw [hq.1 i, h.ncp]
  have pad : ∀ {α : Type} [Scalar α] (s : Sphere α) (q : List (Cx α)), q.length = s.sht.ncp → ∀ k, s.sht.ncp ≤ k → k < (s.lmax + 1) ^ 2 →
      gv (s.bufC q) k = ⟨0, 0⟩ := by
    intro α _ s q hq k h1 h2
    unfold Sphere.bufC gv
    rw [List.getElem?_append_right (by omega), List.getElem?_replicate, if_pos (by omega)]
    rfl
  refine ⟨fun i => by rw [(h.wf i).bufC_length (li i), h.lmax], h.wf0.bufC_length l0, fun k hk => ?_⟩
  by_cases hc : k < ncpOf s0.lmax s0.mmax
  · rw [Sphere.gv_bufC l0 (by rw [h.ncp0]; exact hc)]
    have : ∀ i, gv ((s i).bufC (q i)) k = gv (q i) k := fun i => Sphere.gv_bufC (li i) (by rw [h.ncp]; exact hc)
    simp only [this]
    exact hq.gv hF k
  · rw [pad s0 Q l0 k (by rw [h.ncp0]; omega) hk]
    have : ∀ i, gv ((s i).bufC (q i)) k = ⟨0, 0⟩ := fun i => pad _ _ (li i) k (by rw [h.ncp]; omega) (by rw [h.lmax]; exact hk)
    simp only [this]
    exact ⟨NearF.nat hF 0, NearF.nat hF 0⟩

theorem cut {q : ∀ i, List (Cx (φ i).T)} {Q : List (Cx CR)} (hq : NearC l φ ((s0.lmax + 1) ^ 2) q Q) :
    NearC l φ (ncpOf s0.lmax s0.mmax) (fun i => (q i).take (s i).sht.ncp) (Q.take s0.sht.ncp) := by
  have hle : ncpOf s0.lmax s0.mmax ≤ (s0.lmax + 1) ^ 2 := by rw [← h.ncp0]; exact h.wf0.ncp_le
  have tk : ∀ {α : Type} [Inhabited α] (w : List α) (n k : ℕ), k < n → gv (w.take n) k = gv w k := by
    intro α _ w n k hk
    unfold gv
    rw [List.getElem?_take, if_pos hk]
  refine ⟨fun i => by rw [List.length_take, hq.1 i, h.ncp]; omega, by rw [List.length_take, hq.2.1, h.ncp0]; omega, fun k hk => ?_⟩
  rw [tk _ _ _ (by rw [h.ncp0]; exact hk)]
  have : ∀ i, gv ((q i).take (s i).sht.ncp) k = gv (q i) k := fun i => tk _ _ _ (by rw [h.ncp]; exact hk)
  simp only [this]
  exact hq.gv hF k

theorem ofRe {v : ∀ i, List (φ i).T} {V : List CR} (hv : NearFL l φ (s0.nlat * s0.nphi) v V) :
    NearC l φ (s0.nlat * s0.nphi) (fun i => (v i).map Cx.ofRe) (V.map Cx.ofRe) := by
  have key : ∀ {α : Type} [Scalar α] (w : List α) (k : ℕ), gv (w.map Cx.ofRe) k = Cx.ofRe (gv w k) := by
    intro α _ w k
    unfold gv
    rw [List.getElem?_map]
    cases w[k]? with
    | none => rfl
    | some x => rfl
  refine ⟨fun i => by simp [hv.1 i], by simp [hv.2.1], fun k hk => ?_⟩
  simp only [key]
  exact ⟨hv.gv hF k, NearF.nat hF 0⟩

theorem sphX {v : ∀ i, List (φ i).T} {V : List CR} (hv : NearFL l φ (s0.nlat * s0.nphi) v V) :
    NearFL l φ (s0.nlat * s0.nphi) (fun i => (s i).sphXP (v i)) (s0.sphXP V) := by
  have h1 := h.shToSpatC hF (h.cut hF (h.raise hF (h.buf hF (h.spatToSHC hF (h.ofRe hF hv)))))
  have h2 := h.shToSpatC hF (h.cut hF (h.lower hF (h.buf hF (h.spatToSHC hF (h.ofRe hF hv)))))
  have h3 := h.phi hF hv
  unfold Sphere.sphXP
  simp only [h.nSph]
  rw [h.wf0.nSph']
  apply NearFL.tab
  intro k _
  have hm := NearZ.mul hF (w := fun i => gv ((s i).ladP (s i).raiseP (v i)) k) (z := fun i => gv ((s i).ladP (s i).lowerP (v i)) k)
    (h1.gv hF k) (h2.gv hF k)
  exact hm.1.neg.add hF ((h3.gv hF k).pown hF 2)

end SphFam

end SFK
