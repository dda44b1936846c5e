import Verif.Lemmas.LinSphere
import Verif.Lemmas.Setup
import Verif.Spec.Symmetry
/-
The grid operators on arbitrary finite data, as operators on real-valued functions of the flat index: linearity and
equivariance under cyclic shifts in the azimuth.
-/
namespace SFK
open Scalar CR

/-- the list `v` holds the real values `u` -/
def IsF (n : ℕ) (v : List CR) (u : ℕ → ℝ) : Prop := v.length = n ∧ ∀ i, i < n → gv v i = fin (u i)

theorem IsF.tab (n : ℕ) (u : ℕ → ℝ) : IsF n (tab n fun i => fin (u i)) u := ⟨by simp, fun i hi => by rw [gv_tab hi]⟩
theorem IsF.eq {n : ℕ} {v : List CR} {u : ℕ → ℝ} (h : IsF n v u) : v = SFK.tab n fun i => fin (u i) := by
  rw [← tab_gv' h.1]
  exact tab_congr fun i hi => h.2 i hi
theorem IsF.congr {n : ℕ} {v : List CR} {u w : ℕ → ℝ} (h : IsF n v u) (e : ∀ i, i < n → u i = w i) : IsF n v w :=
  ⟨h.1, fun i hi => by rw [h.2 i hi, e i hi]⟩
theorem IsF.unique {n : ℕ} {v : List CR} {u w : ℕ → ℝ} (h : IsF n v u) (k : IsF n v w) : ∀ i, i < n → u i = w i := fun i hi => by
  have := (h.2 i hi).symm.trans (k.2 i hi)
  rwa [fin_inj] at this
theorem IsF.ext {n : ℕ} {v w : List CR} {u : ℕ → ℝ} (h : IsF n v u) (k : IsF n w u) : v = w := by rw [h.eq, k.eq]

/-- The list operator `T` acts on finite data of size `n` as the real operator `D`. -/
def ActsF (n : ℕ) (T : List CR → List CR) (D : (ℕ → ℝ) → ℕ → ℝ) : Prop := ∀ v u, IsF n v u → IsF n (T v) (D u)

theorem ActsF.congr {n : ℕ} {T : List CR → List CR} {D : (ℕ → ℝ) → ℕ → ℝ} (h : ActsF n T D) {u w : ℕ → ℝ}
    (e : ∀ i, i < n → u i = w i) : ∀ i, i < n → D u i = D w i :=
  (h _ _ (IsF.tab n u)).unique (h _ _ ((IsF.tab n u).congr e))

theorem ActsF.comp {n : ℕ} {T T' : List CR → List CR} {D D' : (ℕ → ℝ) → ℕ → ℝ} (h : ActsF n T D) (h' : ActsF n T' D') :
    ActsF n (fun v => T (T' v)) (fun u => D (D' u)) := fun v u hv => h _ _ (h' _ _ hv)

/-- linear on the first `n` values -/
def LinF (n : ℕ) (D : (ℕ → ℝ) → ℕ → ℝ) : Prop := ∀ a b u w i, i < n → D (fun j => a * u j + b * w j) i = a * D u i + b * D w i

/-- commutes with the index map `ρ` -/
def RotF (n : ℕ) (ρ : ℕ → ℕ) (D : (ℕ → ℝ) → ℕ → ℝ) : Prop := ∀ u i, i < n → D (fun j => u (ρ j)) i = D u (ρ i)

theorem LinF.comp {n : ℕ} {T : List CR → List CR} {D D' : (ℕ → ℝ) → ℕ → ℝ} (hT : ActsF n T D) (h : LinF n D) (h' : LinF n D') :
    LinF n (fun u => D (D' u)) := by
  intro a b u w i hi
  beta_reduce
  rw [← h a b _ _ i hi]
  exact hT.congr (fun j hj => h' a b u w j hj) i hi

theorem RotF.comp {n : ℕ} {ρ : ℕ → ℕ} {T : List CR → List CR} {D D' : (ℕ → ℝ) → ℕ → ℝ} (hT : ActsF n T D) (h : RotF n ρ D) (h' : RotF n ρ D') :
    RotF n ρ (fun u => D (D' u)) := by
  intro u i hi
  beta_reduce
  rw [← h _ i hi]
  exact hT.congr (fun j hj => h' u j hj) i hi

/-! ## Radial lines -/

/-- A list operator that acts linearly on finite lines. -/
def LinR (n : ℕ) (T : List CR → List CR) : Prop := ∃ D, ActsF n T D ∧ LinF n D

theorem LinR.comp {n : ℕ} {T T' : List CR → List CR} (h : LinR n T) (h' : LinR n T') : LinR n fun v => T (T' v) := by
  obtain ⟨D, a, b⟩ := h
  obtain ⟨D', a', b'⟩ := h'
  exact ⟨_, a.comp a', LinF.comp a b b'⟩

theorem LinR.fd_der (fd : FD CR) {h : ℝ} (hdx : fd.dx = fin h) (hh : h ≠ 0) (hn : 7 ≤ fd.n) :
    LinR fd.n fun v => tab fd.n (fd.derV (gv v)) := by
  have key : ∀ u : ℕ → ℝ, (gv (tab fd.n fun i => fin (u i))) = fun i => fin (if i < fd.n then u i else 0) := fun u => by
    funext i
    by_cases hi : i < fd.n
    · rw [gv_tab hi, if_pos hi]
    · rw [if_neg hi]
      unfold gv
      rw [List.getElem?_eq_none (by simp; omega)]
      exact default_eq
  refine ⟨fun u i => (∑ j ∈ Finset.range 7, FD.c1 (i - FD.b1 fd.n i) j * (if FD.b1 fd.n i + j < fd.n then u (FD.b1 fd.n i + j) else 0)) / h, ?_, ?_⟩
  · intro v u hv
    rw [hv.eq]
    beta_reduce
    rw [key]
    refine ⟨by simp, fun i hi => ?_⟩
    rw [gv_tab hi, FD.derV_fin fd hdx hh hn _ hi]
  · intro a b u w i _
    beta_reduce
    rw [mul_div_assoc', mul_div_assoc', ← add_div, Finset.mul_sum, Finset.mul_sum, ← Finset.sum_add_distrib]
    congr 1
    apply Finset.sum_congr rfl
    intro j _
    split_ifs <;> ring

theorem LinR.fd_der2 (fd : FD CR) {h : ℝ} (hdx : fd.dx = fin h) (hh : h ≠ 0) (hn : 8 ≤ fd.n) :
    LinR fd.n fun v => tab fd.n (fd.der2V (gv v)) := by
  have key : ∀ u : ℕ → ℝ, (gv (tab fd.n fun i => fin (u i))) = fun i => fin (if i < fd.n then u i else 0) := fun u => by
    funext i
    by_cases hi : i < fd.n
    · rw [gv_tab hi, if_pos hi]
    · rw [if_neg hi]
      unfold gv
      rw [List.getElem?_eq_none (by simp; omega)]
      exact default_eq
  refine ⟨fun u i => (∑ j ∈ Finset.range 8, FD.c2 (i - FD.b2 fd.n i) j * (if FD.b2 fd.n i + j < fd.n then u (FD.b2 fd.n i + j) else 0)) / h ^ 2, ?_, ?_⟩
  · intro v u hv
    rw [hv.eq]
    beta_reduce
    rw [key]
    refine ⟨by simp, fun i hi => ?_⟩
    rw [gv_tab hi, FD.der2V_fin fd hdx hh hn _ hi]
  · intro a b u w i _
    beta_reduce
    rw [mul_div_assoc', mul_div_assoc', ← add_div, Finset.mul_sum, Finset.mul_sum, ← Finset.sum_add_distrib]
    congr 1
    apply Finset.sum_congr rfl
    intro j _
    split_ifs <;> ring

theorem dR_comb (n : ℕ) (a b : ℝ) (u w : ℕ → ℝ) (k : ℕ) : dR n (fun j => a * u j + b * w j) k = a * dR n u k + b * dR n w k := by
  induction hm : n - k using Nat.strong_induction_on generalizing k with
  | _ m ih =>
    rw [dR.eq_1 n _ k, dR.eq_1 n u k, dR.eq_1 n w k]
    split_ifs with hk
    · rw [ih (n - (k + 2)) (by omega) (k + 2) rfl]
      ring
    · simp

theorem trunc2_comb (n : ℕ) (a b : ℝ) (u w : ℕ → ℝ) : trunc2 n (fun j => a * u j + b * w j) = fun k => a * trunc2 n u k + b * trunc2 n w k := by
  funext k
  unfold trunc2
  split_ifs <;> ring

theorem redft00_comb (N : ℕ) (a b : ℝ) (u w : ℕ → ℝ) (k : ℕ) :
    redft00 N (fun j => a * u j + b * w j) k = a * redft00 N u k + b * redft00 N w k := by
  unfold redft00
  simp only [mul_add, add_mul, Finset.sum_add_distrib, Finset.mul_sum]
  simp only [← Finset.mul_sum]
  have e : ∀ (c : ℝ) (z : ℕ → ℝ) (s : Finset ℕ) (q : ℕ → ℝ), ∑ x ∈ s, c * z x * q x = c * ∑ x ∈ s, z x * q x := fun c z s q => by
    rw [Finset.mul_sum]; exact Finset.sum_congr rfl fun _ _ => by ring
  simp only [e]
  ring

theorem LinR.cheb_der {n : ℕ} {lo up : ℝ} {dct : List CR → List CR} {c : Cheb CR} (hn : 2 ≤ n) (hlu : lo ≠ up) (hf : FftwOk n dct)
    (hb : Built n lo up dct c) : LinR n c.derP := by
  let co : (ℕ → ℝ) → ℕ → ℝ := fun u k => wN (n - 1) k * redft00 (n - 1) u k / (2 * ((n - 1 : ℕ) : ℝ))
  let dc : (ℕ → ℝ) → ℕ → ℝ := fun a k => if k = 0 then dR n (trunc2 n a) 0 / 2 else dR n (trunc2 n a) k
  refine ⟨fun u i => (∑ k ∈ Finset.range n, dc (co u) k * Real.cos (Real.pi * k * i / ((n - 1 : ℕ) : ℝ))) / ((up - lo) / 2), ?_, ?_⟩
  · intro v u hv
    refine ⟨by simp [Cheb.derP, hb.n], fun i hi => ?_⟩
    unfold Cheb.derP
    rw [hv.eq, toChP_fin hn hf hb, hb.n]
    have hco : tab n (Cheb.dcoef n (gv (tab n fun k => fin (co u k)))) = tab n fun k => fin (dc (co u) k) := by
      apply tab_congr
      intro k hk
      unfold Cheb.dcoef
      have hT : ∀ k, k < n → Cheb.truncV n (gv (tab n fun k => fin (co u k))) k = fin (trunc2 n (co u) k) := by
        intro k hk
        unfold Cheb.truncV trunc2
        rw [gv_tab hk]
        split_ifs
        · rfl
        · simp
      rw [dV_fin n _ _ hT, dV_fin n _ _ hT]
      simp only [dc]
      split_ifs
      · simp
      · rfl
    rw [hco, toPoP_fin hn hf hb, hb.jac, gv_tab hi, gv_tab hi, fin_div]
    intro h
    apply hlu
    linarith
  · intro a b u w i _
    have h1 : co (fun j => a * u j + b * w j) = fun k => a * co u k + b * co w k := by
      funext k
      simp only [co]
      rw [redft00_comb]
      ring
    have h2 : ∀ y z : ℕ → ℝ, dc (fun j => a * y j + b * z j) = fun k => a * dc y k + b * dc z k := fun y z => by
      funext k
      simp only [dc]
      rw [trunc2_comb, dR_comb, dR_comb]
      split_ifs <;> ring
    beta_reduce
    rw [h1, h2, mul_div_assoc', mul_div_assoc', ← add_div, Finset.mul_sum, Finset.mul_sum, ← Finset.sum_add_distrib]
    congr 1
    apply Finset.sum_congr rfl
    intro j _
    ring

/-! ## The radial operators of a grid -/

variable {E : Env CR} {P : ParamRec CR} {g : Grid CR} {q : Phys} {x : ℕ → ℝ} {A : ℕ → ℕ → ℕ → ℝ}

namespace Exact
variable (h : Exact E P g q x A)
include h

theorem nx : g.d.nx = P.nx := by rw [h.setup.dims]
theorem nlat : g.d.nlat = P.nlat := by rw [h.setup.dims]
theorem nphi : g.d.nphi = P.nphi := by rw [h.setup.dims]

theorem rad : g.radial = Grid.radialOf E (fin q.lo) (fin q.up) P.nx := by rw [h.setup.radial, h.phys.lo, h.phys.up]

theorem linR_der : LinR g.d.nx g.radial.derP ∧ LinR g.d.nx g.radial.der2P := by
  obtain ⟨h2, hW⟩ := h.setup.sizes.two
  have hmin := h.setup.sizes.nx_min
  rw [h.rad, h.nx]
  unfold Grid.radialOf
  cases hc : E.useCheb
  · rw [hc] at hmin
    simp only [Bool.false_eq_true, if_false] at hmin ⊢
    have hn1 : (P.nx : ℝ) - 1 ≠ 0 := by
      have : (2 : ℝ) ≤ P.nx := by exact_mod_cast h2
      linarith
    have hdx : (FD.mk' P.nx (fin q.lo) (fin q.up) E.ndebug).dx = fin ((q.up - q.lo) / (P.nx - 1)) := by
      unfold FD.mk'
      dsimp only
      rw [usub_of_le (by omega) (by omega)]
      simp only [fin_sub, fin_dbl]
      rw [Nat.cast_sub (by omega), Nat.cast_one, fin_div _ _ hn1]
    have hne : (q.up - q.lo) / (P.nx - 1) ≠ 0 := div_ne_zero (sub_ne_zero.mpr h.lu.symm) hn1
    exact ⟨LinR.fd_der (FD.mk' P.nx (fin q.lo) (fin q.up) E.ndebug) hdx hne (by show 7 ≤ P.nx; omega),
      LinR.fd_der2 (FD.mk' P.nx (fin q.lo) (fin q.up) E.ndebug) hdx hne (by show 8 ≤ P.nx; omega)⟩
  · simp only [if_true]
    have hb := built h2 hW h.env.fftw (Cheb.mk'_eq P.nx (fin q.lo) (fin q.up) (E.dct P.nx) E.ndebug)
    have := LinR.cheb_der h2 h.lu h.env.fftw hb
    exact ⟨this, this.comp this⟩

theorem jac {ix : ℕ} (hx : ix < g.d.nx) : ∃ j1 j2, g.dRV ix = fin j1 ∧ g.d2RV ix = fin j2 := by
  have hp : g.radial.ptV ix = fin (radPt E.useCheb P.nx q.lo q.up ix) := by
    rw [h.rad]; exact radialOf_pt h.setup.sizes.two.1 h.setup.sizes.two.2 q.lo q.up (h.nx ▸ hx)
  have hcl : g.cl = fin q.L := by rw [h.setup.cl, h.phys.L]
  refine ⟨(1 - radPt E.useCheb P.nx q.lo q.up ix / q.L) ^ 2, -2 / q.L * (1 - radPt E.useCheb P.nx q.lo q.up ix / q.L) ^ 3, ?_, ?_⟩
  · unfold Grid.dRV; rw [hp, hcl]; simp [h.L0]
  · unfold Grid.d2RV; rw [hp, hcl]; simp [h.L0]

theorem linR_opr : LinR g.d.nx g.oprP := by
  obtain ⟨⟨D, a, b⟩, _⟩ := h.linR_der
  choose! j1 j2 k1 k2 using fun ix => h.jac (ix := ix)
  refine ⟨fun u i => D u i * j1 i, fun v u hv => ⟨by simp [Grid.oprP], fun i hi => ?_⟩, fun c d u w i hi => ?_⟩
  · unfold Grid.oprP
    rw [gv_tab hi, (a v u hv).2 i hi, k1 i hi, fin_mul]
  · beta_reduce
    rw [b c d u w i hi]
    ring

theorem linR_op2r : LinR g.d.nx g.op2rP := by
  obtain ⟨⟨D, a, b⟩, ⟨D2, a2, b2⟩⟩ := h.linR_der
  choose! j1 j2 k1 k2 using fun ix => h.jac (ix := ix)
  refine ⟨fun u i => j2 i * D u i + j1 i ^ 2 * D2 u i, fun v u hv => ⟨by simp [Grid.op2rP], fun i hi => ?_⟩, fun c d u w i hi => ?_⟩
  · unfold Grid.op2rP
    rw [gv_tab hi, (a v u hv).2 i hi, (a2 v u hv).2 i hi, k1 i hi, k2 i hi]
    simp
  · beta_reduce
    rw [b c d u w i hi, b2 c d u w i hi]
    ring

end Exact

/-! ## Lifting to the grid -/

/-- the flat index of the grid point `k` azimuthal steps further -/
def Dims.rot (d : Dims) (k i : ℕ) : ℕ := d.pos3 (d.dX i) (d.dT i) ((d.dP i + k) % d.nphi)

section lift
variable {d : Dims}

theorem Dims.rot_lt {k i : ℕ} (hi : i < d.total) : d.rot k i < d.total := by
  obtain ⟨h1, _⟩ := d.dec3 hi
  exact d.pos3_lt ⟨h1.1, h1.2.1, Nat.mod_lt _ (by have := h1.2.2; omega)⟩

theorem Dims.rot_dec {k i : ℕ} (hi : i < d.total) : d.dX (d.rot k i) = d.dX i ∧ d.dT (d.rot k i) = d.dT i ∧
    d.dP (d.rot k i) = (d.dP i + k) % d.nphi := by
  obtain ⟨h1, _⟩ := d.dec3 hi
  have hr : d.InR (d.dX i) (d.dT i) ((d.dP i + k) % d.nphi) := ⟨h1.1, h1.2.1, Nat.mod_lt _ (by have := h1.2.2; omega)⟩
  exact ⟨d.dX_pos3 hr, d.dT_pos3 hr, d.dP_pos3 hr⟩

theorem Dims.rot_pos3 {k ix it ip : ℕ} (h : d.InR ix it ip) : d.rot k (d.pos3 ix it ip) = d.pos3 ix it ((ip + k) % d.nphi) := by
  unfold Dims.rot
  rw [d.dX_pos3 h, d.dT_pos3 h, d.dP_pos3 h]

theorem Dims.Ok.at3_eq (h : d.Ok) (v : List CR) {ix it ip : ℕ} (hr : d.InR ix it ip) : d.at3 v ix it ip = gv v (d.pos3 ix it ip) := by
  unfold Dims.at3
  rw [h.indx3 hr]

theorem IsF.at3 (h : d.Ok) {v : List CR} {u : ℕ → ℝ} (hv : IsF d.total v u) {ix it ip : ℕ} (hr : d.InR ix it ip) :
    d.at3 v ix it ip = fin (u (d.pos3 ix it ip)) := by
  rw [h.at3_eq v hr]
  exact hv.2 _ (d.pos3_lt hr)

/-- an operator acting line by line -/
theorem lift_lines (h : d.Ok) {T : List CR → List CR} (hT : LinR d.nx T) :
    ∃ D, ActsF d.total (fun v => d.ofLines fun it ip => T (d.lineOf v it ip)) D ∧ LinF d.total D ∧ ∀ k, RotF d.total (d.rot k) D := by
  obtain ⟨D, a, b⟩ := hT
  refine ⟨fun u i => D (fun ix => u (d.pos3 ix (d.dT i) (d.dP i))) (d.dX i), ?_, ?_, ?_⟩
  · intro v u hv
    refine ⟨by simp, fun i hi => ?_⟩
    obtain ⟨h1, h2⟩ := d.dec3 hi
    unfold Dims.ofLines Dims.mk3
    rw [gv_tab hi]
    refine (a _ (fun ix => u (d.pos3 ix (d.dT i) (d.dP i))) ⟨by simp, fun ix hx => ?_⟩).2 _ h1.1
    unfold Dims.lineOf
    rw [gv_tab hx, hv.at3 h ⟨hx, h1.2.1, h1.2.2⟩]
  · intro c e u w i hi
    exact b c e _ _ _ (d.dec3 hi).1.1
  · intro k u i hi
    obtain ⟨h1, h2⟩ := d.dec3 hi
    obtain ⟨r1, r2, r3⟩ := d.rot_dec (k := k) hi
    beta_reduce
    rw [r1, r2, r3]
    refine a.congr (fun j hj => ?_) _ h1.1
    rw [d.rot_pos3 ⟨hj, h1.2.1, h1.2.2⟩]

/-- an operator acting shell by shell -/
theorem lift_shells (h : d.Ok) {T : List CR → List CR} (D : (ℕ → ℕ → ℝ) → ℕ → ℕ → ℝ)
    (hT : ∀ v u, Is2 d.contig d.nlat d.nphi v u → Is2 d.contig d.nlat d.nphi (T v) (D u)) :
    ActsF d.total (fun v => d.ofShells fun ix => T (d.shellOf v ix))
      (fun u i => D (fun it ip => u (d.pos3 (d.dX i) it ip)) (d.dT i) (d.dP i)) := by
  intro v u hv
  refine ⟨by simp, fun i hi => ?_⟩
  obtain ⟨h1, h2⟩ := d.dec3 hi
  unfold Dims.ofShells Dims.mk3
  rw [gv_tab hi]
  have hs : Is2 d.contig d.nlat d.nphi (d.shellOf v (d.dX i)) (fun it ip => u (d.pos3 (d.dX i) it ip)) := by
    refine ⟨by rw [Dims.shellOf_length]; rfl, fun it ip ht hp => ?_⟩
    have := h.at2_mk2 (F := fun it ip => d.at3 v (d.dX i) it ip) ht hp
    unfold Dims.at2 at this
    rw [h.indx2 ht hp] at this
    unfold Dims.shellOf
    rw [← pos2_eq_spos, this, hv.at3 h ⟨h1.1, ht, hp⟩]
  have := (hT _ _ hs).2 _ _ h1.2.1 h1.2.2
  show gv (T (d.shellOf v (d.dX i))) (d.indx_th_ph (d.dT i) (d.dP i)) = _
  rw [h.indx2 h1.2.1 h1.2.2, pos2_eq_spos]
  exact this

theorem lift_shells_lin {D : (ℕ → ℕ → ℝ) → ℕ → ℕ → ℝ}
    (hD : ∀ a b u w it ip, D (fun it ip => a * u it ip + b * w it ip) it ip = a * D u it ip + b * D w it ip) :
    LinF d.total (fun u i => D (fun it ip => u (d.pos3 (d.dX i) it ip)) (d.dT i) (d.dP i)) :=
  fun a b u w i _ => hD a b (fun it ip => u (d.pos3 (d.dX i) it ip)) (fun it ip => w (d.pos3 (d.dX i) it ip)) _ _

theorem lift_shells_rot {D : (ℕ → ℕ → ℝ) → ℕ → ℕ → ℝ} (k : ℕ)
    (hc : ∀ u w : ℕ → ℕ → ℝ, (∀ it ip, it < d.nlat → ip < d.nphi → u it ip = w it ip) → D u = D w)
    (hD : ∀ u it ip, it < d.nlat → D (fun it ip => u it ((ip + k) % d.nphi)) it ip = D u it ((ip + k) % d.nphi)) :
    RotF d.total (d.rot k) (fun u i => D (fun it ip => u (d.pos3 (d.dX i) it ip)) (d.dT i) (d.dP i)) := by
  intro u i hi
  obtain ⟨h1, h2⟩ := d.dec3 hi
  obtain ⟨r1, r2, r3⟩ := d.rot_dec (k := k) hi
  beta_reduce
  rw [r1, r2, r3, ← hD _ _ _ h1.2.1]
  have := hc (fun it ip => u (d.rot k (d.pos3 (d.dX i) it ip))) (fun it ip => u (d.pos3 (d.dX i) it ((ip + k) % d.nphi)))
    (fun it ip ht hp => by rw [d.rot_pos3 ⟨h1.1, ht, hp⟩])
  exact congrFun (congrFun this _) _

end lift

/-- The operators of the equation of motion on finite data. -/
structure Ops (g : Grid CR) (pr p2r ph lap fl : (ℕ → ℝ) → ℕ → ℝ) : Prop where
  pr : ActsF g.d.total g.prP pr ∧ LinF g.d.total pr ∧ ∀ k, RotF g.d.total (g.d.rot k) pr
  p2r : ActsF g.d.total g.p2rP p2r ∧ LinF g.d.total p2r ∧ ∀ k, RotF g.d.total (g.d.rot k) p2r
  ph : ActsF g.d.total g.pphiP ph ∧ LinF g.d.total ph ∧ ∀ k, RotF g.d.total (g.d.rot k) ph
  lap : ActsF g.d.total g.plapP lap ∧ LinF g.d.total lap ∧ ∀ k, RotF g.d.total (g.d.rot k) lap
  fl : ActsF g.d.total g.filtP fl ∧ LinF g.d.total fl ∧ ∀ k, RotF g.d.total (g.d.rot k) fl

namespace Exact
variable (h : Exact E P g q x A)
include h

theorem math : g.sphere.sht.Math g.d.contig g.sphere.nlat g.sphere.nphi x A := by
  rw [h.setup.sht, h.setup.wf.nlat, h.setup.wf.nphi, h.setup.dims]; exact h.env.math

theorem lift_mul {T : List CR → List CR} {μ : ℕ → ℕ → ℂ} (hT : ∀ v u, Is2 g.d.contig g.sphere.nlat g.sphere.nphi v u →
    Is2 g.d.contig g.sphere.nlat g.sphere.nphi (T v) (mulN g.sphere x A μ u)) :
    ∃ D, ActsF g.d.total (fun v => g.d.ofShells fun ix => T (g.d.shellOf v ix)) D ∧ LinF g.d.total D ∧
      ∀ k, RotF g.d.total (g.d.rot k) D := by
  have hw := h.setup.wf
  have hT' := hT
  rw [hw.nlat, hw.nphi] at hT'
  refine ⟨_, lift_shells hw.ok _ hT', lift_shells_lin fun a b u w it ip => mulN_comb μ a b u w it ip, fun k => lift_shells_rot k ?_ ?_⟩
  · intro u w hu
    exact mulN_congr μ (by rw [hw.nlat, hw.nphi]; exact hu)
  · intro u it ip _
    have := mulN_rot (s := g.sphere) (x := x) (A := A) μ (by rw [hw.nphi]; exact hw.ok.nphi_pos) k u it ip
    rw [hw.nphi] at this
    exact this

theorem ops : ∃ pr p2r ph lap fl, Ops g pr p2r ph lap fl := by
  have hw := h.setup.wf
  have hm := h.math
  obtain ⟨D1, a1⟩ := lift_lines hw.ok h.linR_opr
  obtain ⟨D2, a2⟩ := lift_lines hw.ok h.linR_op2r
  obtain ⟨D3, a3⟩ := h.lift_mul (fun v u hv => phiP_is2 hw.sph hm hv)
  obtain ⟨D4, a4⟩ := h.lift_mul (fun v u hv => lapP_is2 hw.sph hm hv)
  obtain ⟨D5, a5⟩ := h.lift_mul (fun v u hv => filtP_is2 hw.sph hm hv)
  exact ⟨D1, D2, D3, D4, D5, a1, a2, a3, a4, a5⟩

/-- the squared angular gradient -/
theorem opX : ∃ X : (ℕ → ℝ) → ℕ → ℝ, ActsF g.d.total g.psphXP X ∧
    (P.nl ≤ P.nm + 1 → ∀ k, RotF g.d.total (g.d.rot k) X) ∧ ∀ a u i, i < g.d.total → X (fun j => a * u j) i = a ^ 2 * X u i := by
  have hw := h.setup.wf
  have hm := h.math
  have hml' : P.nl ≤ P.nm + 1 → g.sphere.lmax ≤ g.sphere.mmax + 1 := by
    rw [hw.mmax, hw.lmax, h.setup.dims]; exact id
  have hT := fun v u hv => sphXP_is2 (v := v) (u := u) hw.sph hm h.setup.full hv
  have hin := hm.inside
  have e1 := hw.nlat
  have e2 := hw.nphi
  generalize g.sphere.lmax = L at hT hml'
  generalize g.sphere.mmax = M at hT hml'
  rw [e1, e2] at hT
  rw [e1] at hin
  refine ⟨_, lift_shells hw.ok (fun u it ip => sphXG L M (anaN A g.d.nlat g.d.nphi u) (Real.arccos (x it)) (phiN g.d.nphi ip)) hT,
    fun hLM k => lift_shells_rot (d := g.d) (D := fun u it ip => sphXG L M (anaN A g.d.nlat g.d.nphi u) (Real.arccos (x it)) (phiN g.d.nphi ip)) k ?_ ?_, ?_⟩
  · intro u w hu
    funext it ip
    exact sphXN_congr hu _ _
  · intro u it ip hit
    refine sphXN_rot (hml' hLM) hw.ok.nphi_pos k u ?_ ip
    rw [Real.sin_arccos]
    have := hin it hit
    have : 0 < 1 - x it ^ 2 := by nlinarith [this.1, this.2]
    exact (Real.sqrt_pos.mpr this).ne'
  · intro a u i _
    exact sphXN_smul a (fun it ip => u (g.d.pos3 (g.d.dX i) it ip)) _ _

end Exact

end SFK
