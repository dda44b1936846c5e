import Verif.Lemmas.FPSphere
/-
The radial operators and the grid operators in families of floating-point computations.
-/
namespace SFK
open Scalar CR Filter Asymptotics Topology

variable {ι : Type*} {l : Filter ι} {φ : ι → Format}

/-! ## Radial lines -/

theorem NearFL.vals (hF : Fine l φ) {n : ℕ} {v : ∀ i, List (φ i).T} {V : List CR} (h : NearFL l φ n v V) :
    ∃ u : ℕ → ℝ, SFK.gv V = fun i => fin (u i) := by
  choose u hu using fun k => (h.gv hF k).1
  exact ⟨u, funext hu⟩

theorem FD.derV_nearF (hF : Fine l φ) {fd : ∀ i, FD (φ i).T} {fd0 : FD CR} (hn : ∀ i, (fd i).n = fd0.n) (h7 : 7 ≤ fd0.n)
    (hdx : NearF l φ (fun i => (fd i).dx) fd0.dx) (h0 : fd0.dx ≠ fin 0) {v : ∀ i, List (φ i).T} {V : List CR}
    (hv : NearFL l φ fd0.n v V) : NearFL l φ fd0.n (fun i => tab (fd i).n ((fd i).derV (gv (v i)))) (tab fd0.n (fd0.derV (gv V))) := by
  simp only [hn]
  apply NearFL.tab
  intro k hk
  constructor
  · obtain ⟨u, hu⟩ := hv.vals hF
    obtain ⟨h, hh⟩ := hdx.1
    rw [hu]
    exact ⟨_, FD.derV_fin fd0 hh (fun e => h0 (by rw [hh, e])) h7 u hk⟩
  · have hg := fun j => (hv.gv hF j).2
    have hd := hdx.2
    unfold FD.derV
    simp only [hn]
    split_ifs <;> (refine Near.div hF ?_ hd) <;> (try apply Near.neg) <;> simp only [FD.derE0, FD.derE1, FD.derE2, FD.derI] <;>
      (near hF) <;> exact hg _

theorem FD.der2V_nearF (hF : Fine l φ) {fd : ∀ i, FD (φ i).T} {fd0 : FD CR} (hn : ∀ i, (fd i).n = fd0.n) (h7 : 8 ≤ fd0.n)
    (hdx : NearF l φ (fun i => (fd i).dx) fd0.dx) (h0 : fd0.dx ≠ fin 0) {v : ∀ i, List (φ i).T} {V : List CR}
    (hv : NearFL l φ fd0.n v V) : NearFL l φ fd0.n (fun i => tab (fd i).n ((fd i).der2V (gv (v i)))) (tab fd0.n (fd0.der2V (gv V))) := by
  simp only [hn]
  apply NearFL.tab
  intro k hk
  constructor
  · obtain ⟨u, hu⟩ := hv.vals hF
    obtain ⟨h, hh⟩ := hdx.1
    rw [hu]
    exact ⟨_, FD.der2V_fin fd0 hh (fun e => h0 (by rw [hh, e])) h7 u hk⟩
  · have hg := fun j => (hv.gv hF j).2
    have hd := Near.pown hF hdx.2 2
    unfold FD.der2V
    simp only [hn]
    split_ifs <;> (refine Near.div hF ?_ hd) <;> simp only [FD.der2E0, FD.der2E1, FD.der2E2, FD.der2I] <;>
      (near hF) <;> exact hg _

theorem Cheb.dV_nearF (hF : Fine l φ) (n : ℕ) {a : ∀ i, ℕ → (φ i).T} {A : ℕ → CR} (ha : ∀ k, NearF l φ (fun i => a i k) (A k)) (k : ℕ) :
    NearF l φ (fun i => Cheb.dV n (a i) k) (Cheb.dV n A k) := by
  induction hm : n - k using Nat.strong_induction_on generalizing k with
  | _ m ih =>
    have e : (fun i => Cheb.dV n (a i) k) = fun i => if k + 2 < n then 2 * dbl (k + 1) * a i (k + 1) + Cheb.dV n (a i) (k + 2) else 0 := by
      funext i; rw [Cheb.dV.eq_1]
    rw [e, Cheb.dV.eq_1]
    by_cases hk : k + 2 < n
    · simp only [if_pos hk]
      exact (((NearF.nat hF 2).mul hF (NearF.dbl hF _)).mul hF (ha _)).add hF (ih (n - (k + 2)) (by omega) (k + 2) rfl)
    · simp only [if_neg hk]
      exact NearF.nat hF 0

theorem ofNat_ne {k : ℕ} (hk : k ≠ 0) : (@OfNat.ofNat CR k (instOfNatS k)) ≠ fin 0 := by
  show (Scalar.lit (k : ℚ) : CR) ≠ fin 0
  rw [fin_lit, ne_eq, fin_inj]
  exact_mod_cast hk

theorem dbl_ne {k : ℕ} (hk : k ≠ 0) : (dbl k : CR) ≠ fin 0 := by
  rw [fin_dbl, ne_eq, fin_inj]
  exact_mod_cast hk

/-- a family of Chebyshev grids -/
structure ChebFam (l : Filter ι) (φ : ι → Format) (K : ℝ) (A : ℕ → ℕ → ℝ) (c : ∀ i, Cheb (φ i).T) (c0 : Cheb CR) : Prop where
  n : ∀ i, (c i).n = c0.n
  two : 2 ≤ c0.n
  len : ∀ i v, v.length = c0.n → ((c i).dct v).length = c0.n
  dct : ∀ i, (φ i).ApproxMat K c0.n c0.n id id (c i).dct A
  dct0 : IsMat c0.n c0.n id id c0.dct A
  jac : NearF l φ (fun i => (c i).jacobian) c0.jacobian
  jac0 : c0.jacobian ≠ fin 0

namespace ChebFam
variable {K : ℝ} {A : ℕ → ℕ → ℝ} {c : ∀ i, Cheb (φ i).T} {c0 : Cheb CR} (h : ChebFam l φ K A c c0) (hF : Fine l φ)
include h hF

theorem lib {v : ∀ i, List (φ i).T} {V : List CR} (hv : NearFL l φ c0.n v V) : NearFL l φ c0.n (fun i => (c i).dct (v i)) (c0.dct V) :=
  lib_rule hF h.dct h.dct0 (v := v) (V := V) hv fun i => h.len i _ (hv.1 i)

theorem toCh {v : ∀ i, List (φ i).T} {V : List CR} (hv : NearFL l φ c0.n v V) :
    NearFL l φ c0.n (fun i => (c i).toChP (v i)) (c0.toChP V) := by
  have h2 := h.two
  have hn0 : c0.n - 1 ≠ 0 := by omega
  unfold Cheb.toChP
  simp only [h.n]
  apply NearFL.tab
  intro k _
  have hg := (h.lib hF hv).gv hF k
  unfold Cheb.toChV
  by_cases hk : k = 0 ∨ k = c0.n - 1
  · simp only [if_pos hk]
    refine hg.div hF ((NearF.nat hF 2).mul hF (NearF.dbl hF _)) ?_
    rw [fin_ofNat', fin_dbl, fin_mul, ne_eq, fin_inj]
    have : ((c0.n - 1 : ℕ) : ℝ) ≠ 0 := by exact_mod_cast hn0
    positivity
  · simp only [if_neg hk]
    exact hg.div hF (NearF.dbl hF _) (dbl_ne hn0)

theorem toPo {v : ∀ i, List (φ i).T} {V : List CR} (hv : NearFL l φ c0.n v V) :
    NearFL l φ c0.n (fun i => (c i).toPoP (v i)) (c0.toPoP V) := by
  unfold Cheb.toPoP
  refine h.lib hF ?_
  unfold Cheb.halfP
  simp only [h.n]
  apply NearFL.tab
  intro k _
  unfold Cheb.halfV
  by_cases hk : k = 0 ∨ k = c0.n - 1
  · simp only [if_pos hk]
    exact hv.gv hF k
  · simp only [if_neg hk]
    exact (hv.gv hF k).div hF (NearF.nat hF 2) (ofNat_ne (by norm_num))

theorem der {v : ∀ i, List (φ i).T} {V : List CR} (hv : NearFL l φ c0.n v V) :
    NearFL l φ c0.n (fun i => (c i).derP (v i)) (c0.derP V) := by
  unfold Cheb.derP
  simp only [h.n]
  apply NearFL.tab
  intro k _
  refine NearF.div hF ((h.toPo hF ?_).gv hF k) h.jac h.jac0
  apply NearFL.tab
  intro j _
  have ht : ∀ j, NearF l φ (fun i => Cheb.truncV c0.n (gv ((c i).toChP (v i))) j) (Cheb.truncV c0.n (gv (c0.toChP V)) j) := by
    intro j
    unfold Cheb.truncV
    by_cases hj : j + 2 < c0.n
    · simp only [if_pos hj]
      exact (h.toCh hF hv).gv hF j
    · simp only [if_neg hj]
      exact NearF.nat hF 0
  unfold Cheb.dcoef
  by_cases hj : j = 0
  · simp only [if_pos hj]
    exact (Cheb.dV_nearF hF c0.n ht 0).div hF (NearF.nat hF 2) (ofNat_ne (by norm_num))
  · simp only [if_neg hj]
    exact Cheb.dV_nearF hF c0.n ht j

end ChebFam

/-! ## Grids -/

/-- a family of grids -/
structure GrFam (l : Filter ι) (φ : ι → Format) (K : ℝ) (M : LibMats) (g : ∀ i, Grid (φ i).T) (g0 : Grid CR) : Prop where
  wf : ∀ i, (g i).Wf
  wf0 : g0.Wf
  d : ∀ i, (g i).d = g0.d
  sph : SphFam φ K M (fun i => (g i).sphere) g0.sphere
  der : ∀ (v : ∀ i, List (φ i).T) V, NearFL l φ g0.d.nx v V → NearFL l φ g0.d.nx (fun i => (g i).radial.derP (v i)) (g0.radial.derP V)
  der2 : ∀ (v : ∀ i, List (φ i).T) V, NearFL l φ g0.d.nx v V → NearFL l φ g0.d.nx (fun i => (g i).radial.der2P (v i)) (g0.radial.der2P V)
  pt : ∀ ix, ix < g0.d.nx → NearF l φ (fun i => (g i).radial.ptV ix) (g0.radial.ptV ix)
  cl : NearF l φ (fun i => (g i).cl) g0.cl
  cl0 : g0.cl ≠ fin 0

namespace GrFam
variable {K : ℝ} {M : LibMats} {g : ∀ i, Grid (φ i).T} {g0 : Grid CR} (h : GrFam l φ K M g g0) (hF : Fine l φ)
include h hF

theorem dR {ix : ℕ} (hx : ix < g0.d.nx) : NearF l φ (fun i => (g i).dRV ix) (g0.dRV ix) :=
  NearF.pown hF ((NearF.nat hF 1).sub hF ((h.pt ix hx).div hF h.cl h.cl0)) 2

theorem d2R {ix : ℕ} (hx : ix < g0.d.nx) : NearF l φ (fun i => (g i).d2RV ix) (g0.d2RV ix) :=
  ((NearF.nat hF 2).neg.div hF h.cl h.cl0).mul hF (NearF.pown hF ((NearF.nat hF 1).sub hF ((h.pt ix hx).div hF h.cl h.cl0)) 3)

theorem opr {v : ∀ i, List (φ i).T} {V : List CR} (hv : NearFL l φ g0.d.nx v V) :
    NearFL l φ g0.d.nx (fun i => (g i).oprP (v i)) (g0.oprP V) := by
  unfold Grid.oprP
  simp only [h.d]
  apply NearFL.tab
  intro k hk
  exact ((h.der _ _ hv).gv hF k).mul hF (h.dR hF hk)

theorem op2r {v : ∀ i, List (φ i).T} {V : List CR} (hv : NearFL l φ g0.d.nx v V) :
    NearFL l φ g0.d.nx (fun i => (g i).op2rP (v i)) (g0.op2rP V) := by
  unfold Grid.op2rP
  simp only [h.d]
  apply NearFL.tab
  intro k hk
  exact ((h.d2R hF hk).mul hF ((h.der _ _ hv).gv hF k)).add hF (((h.dR hF hk).pown hF 2).mul hF ((h.der2 _ _ hv).gv hF k))

omit h in
theorem line (d : Dims) {v : ∀ i, List (φ i).T} {V : List CR} (hv : NearFL l φ d.total v V) (it ip : ℕ) :
    NearFL l φ d.nx (fun i => d.lineOf (v i) it ip) (d.lineOf V it ip) := by
  unfold Dims.lineOf
  exact NearFL.tab fun k _ => hv.gv hF _

omit h in
theorem shell (d : Dims) {v : ∀ i, List (φ i).T} {V : List CR} (hv : NearFL l φ d.total v V) (ix : ℕ) :
    NearFL l φ (d.nlat * d.nphi) (fun i => d.shellOf (v i) ix) (d.shellOf V ix) := by
  unfold Dims.shellOf Dims.mk2
  exact NearFL.tab fun k _ => hv.gv hF _

omit h in
theorem lines (d : Dims) {T : ∀ i, List (φ i).T → List (φ i).T} {T0 : List CR → List CR}
    (hT : ∀ (v : ∀ i, List (φ i).T) V, NearFL l φ d.nx v V → NearFL l φ d.nx (fun i => T i (v i)) (T0 V))
    {v : ∀ i, List (φ i).T} {V : List CR} (hv : NearFL l φ d.total v V) :
    NearFL l φ d.total (fun i => d.ofLines fun it ip => T i (d.lineOf (v i) it ip)) (d.ofLines fun it ip => T0 (d.lineOf V it ip)) := by
  unfold Dims.ofLines Dims.mk3
  exact NearFL.tab fun k _ => (hT _ _ (line hF d hv _ _)).gv hF _

omit h in
theorem shells (d : Dims) {T : ∀ i, List (φ i).T → List (φ i).T} {T0 : List CR → List CR}
    (hT : ∀ (v : ∀ i, List (φ i).T) V, NearFL l φ (d.nlat * d.nphi) v V → NearFL l φ (d.nlat * d.nphi) (fun i => T i (v i)) (T0 V))
    {v : ∀ i, List (φ i).T} {V : List CR} (hv : NearFL l φ d.total v V) :
    NearFL l φ d.total (fun i => d.ofShells fun ix => T i (d.shellOf (v i) ix)) (d.ofShells fun ix => T0 (d.shellOf V ix)) := by
  unfold Dims.ofShells Dims.mk3
  exact NearFL.tab fun k _ => (hT _ _ (shell hF d hv _)).gv hF _

theorem pr {v : ∀ i, List (φ i).T} {V : List CR} (hv : NearFL l φ g0.d.total v V) :
    NearFL l φ g0.d.total (fun i => (g i).prP (v i)) (g0.prP V) := by
  unfold Grid.prP
  simp only [h.d]
  exact lines hF g0.d (T := fun i => (g i).oprP) (fun _ _ hw => h.opr hF hw) hv

theorem p2r {v : ∀ i, List (φ i).T} {V : List CR} (hv : NearFL l φ g0.d.total v V) :
    NearFL l φ g0.d.total (fun i => (g i).p2rP (v i)) (g0.p2rP V) := by
  unfold Grid.p2rP
  simp only [h.d]
  exact lines hF g0.d (T := fun i => (g i).op2rP) (fun _ _ hw => h.op2r hF hw) hv

omit hF in
theorem ns : g0.d.nlat * g0.d.nphi = g0.sphere.nlat * g0.sphere.nphi := by rw [h.wf0.nlat, h.wf0.nphi]

theorem pphi {v : ∀ i, List (φ i).T} {V : List CR} (hv : NearFL l φ g0.d.total v V) :
    NearFL l φ g0.d.total (fun i => (g i).pphiP (v i)) (g0.pphiP V) := by
  unfold Grid.pphiP
  simp only [h.d]
  refine shells hF g0.d (T := fun i => (g i).sphere.phiP) (fun _ _ hw => ?_) hv
  rw [h.ns] at hw ⊢
  exact h.sph.phi hF hw

theorem plap {v : ∀ i, List (φ i).T} {V : List CR} (hv : NearFL l φ g0.d.total v V) :
    NearFL l φ g0.d.total (fun i => (g i).plapP (v i)) (g0.plapP V) := by
  unfold Grid.plapP
  simp only [h.d]
  refine shells hF g0.d (T := fun i => (g i).sphere.lapP) (fun _ _ hw => ?_) hv
  rw [h.ns] at hw ⊢
  exact h.sph.lap hF hw

theorem psphX {v : ∀ i, List (φ i).T} {V : List CR} (hv : NearFL l φ g0.d.total v V) :
    NearFL l φ g0.d.total (fun i => (g i).psphXP (v i)) (g0.psphXP V) := by
  unfold Grid.psphXP
  simp only [h.d]
  refine shells hF g0.d (T := fun i => (g i).sphere.sphXP) (fun _ _ hw => ?_) hv
  rw [h.ns] at hw ⊢
  exact h.sph.sphX hF hw

theorem pfilt {v : ∀ i, List (φ i).T} {V : List CR} (hv : NearFL l φ g0.d.total v V) :
    NearFL l φ g0.d.total (fun i => (g i).filtP (v i)) (g0.filtP V) := by
  unfold Grid.filtP
  simp only [h.d]
  refine shells hF g0.d (T := fun i => (g i).sphere.filtP) (fun _ _ hw => ?_) hv
  rw [h.ns] at hw ⊢
  exact h.sph.filt hF hw

end GrFam
end SFK
