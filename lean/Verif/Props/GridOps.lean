import Verif.Props.Grid
/-
C30-C32: the grid filter and the grid derivative operators.
-/
namespace SFK
open Scalar CR Polynomial

/-! ## Common facts -/

section generic
variable {α : Type} [Scalar α] {E : Env α} {nx nl nm nlat nphi : Nat}

/-- a grid returned by the constructor is well formed -/
theorem Grid.wf_of_ctor (hE : E.Sized nx nl nm nlat nphi) (hz : Sizes E.useCheb nx nl nlat nphi) {cl lo up : α}
    {g : Grid α} (hg : Grid.ctor E cl lo up nx nl nm nlat nphi = .ok g) :
    g.Wf ∧ g.d = ⟨nx, nl, nm, nlat, nphi, E.contig, E.ndebug⟩ ∧ g.cl = cl ∧ g.radial = Grid.radialOf E lo up nx ∧
      g.sphere.sht = E.sht nl nm nlat nphi := by
  obtain ⟨g', e, h1, h2, h3, h4, h5, _⟩ := Grid.ctor_wf hE hz cl lo up
  rw [e] at hg
  cases hg
  exact ⟨h1, h2, h3, h4, h5⟩

theorem Dims.Ok.at3_ofShells {d : Dims} (h : d.Ok) (F : Nat → List α) {ix it ip : Nat} (hr : d.InR ix it ip) :
    d.at3 (d.ofShells F) ix it ip = d.at2 (F ix) it ip := h.at3_mk3 hr

theorem Dims.Ok.at3_ofLines {d : Dims} (h : d.Ok) (F : Nat → Nat → List α) {ix it ip : Nat} (hr : d.InR ix it ip) :
    d.at3 (d.ofLines F) ix it ip = gv (F it ip) ix := h.at3_mk3 hr

/-- `s` is the shell `ix` of the field `v`. -/
def IsShell (d : Dims) (v s : List α) (ix : Nat) : Prop :=
  s.length = d.nlat * d.nphi ∧ ∀ it ip, it < d.nlat → ip < d.nphi → d.at2 s it ip = d.at3 v ix it ip

/-- `r` is the radial line `(it,ip)` of the field `v`. -/
def IsLine (d : Dims) (v r : List α) (it ip : Nat) : Prop :=
  r.length = d.nx ∧ ∀ ix, ix < d.nx → gv r ix = d.at3 v ix it ip

theorem IsShell.eq {d : Dims} (h : d.Ok) {v s : List α} {ix : Nat} (hs : IsShell d v s ix) : s = d.shellOf v ix := by
  unfold Dims.shellOf
  rw [h.eq_mk2 hs.1]
  exact Dims.mk2_congr fun it ip a b => hs.2 it ip a b

theorem IsLine.eq {d : Dims} {v r : List α} {it ip : Nat} (hs : IsLine d v r it ip) : r = d.lineOf v it ip := by
  unfold Dims.lineOf
  rw [← tab_gv' hs.1]
  exact tab_congr fun ix hx => hs.2 ix hx

/-! ## C31 -/

variable {g : Grid α}

/-- C31, radial operators: every output value at `(ix,it,ip)` is the 1-d radial operator applied to the line `(it,ip)` of
the input, all entries of the output are overwritten (the result does not depend on its previous content `dv`), and
nothing goes out of bounds. -/
theorem C31_radial_operators (hE : E.Sized nx nl nm nlat nphi) (hz : Sizes E.useCheb nx nl nlat nphi) {cl lo up : α}
    (hg : Grid.ctor E cl lo up nx nl nm nlat nphi = .ok g) {v : List α} (hv : v.length = nx * nlat * nphi) :
    ∃ oR or or2 : List α, oR.length = nx * nlat * nphi ∧ or.length = nx * nlat * nphi ∧ or2.length = nx * nlat * nphi ∧
      (∀ dv, dv.length = nx * nlat * nphi → g.set_partial_R v dv = .ok oR ∧ g.set_partial_r v dv = .ok or ∧
        g.set_partial2_r v dv = .ok or2) ∧
      ∀ it ip, it < nlat → ip < nphi → ∀ r, IsLine g.d v r it ip → ∀ z1 z2, z1.length = nx → z2.length = nx →
        ∃ d1 d2, g.radial.der r z1 = .ok d1 ∧ g.radial.der12 r z1 z2 = .ok (d1, d2) ∧
          ∀ ix, ix < nx → g.d.at3 oR ix it ip = gv d1 ix ∧ g.d.at3 or ix it ip = gv d1 ix * gv g.dR ix ∧
            g.d.at3 or2 ix it ip = gv g.d2R ix * gv d1 ix + pown (gv g.dR ix) 2 * gv d2 ix := by
  obtain ⟨hw, hd, _⟩ := Grid.wf_of_ctor hE hz hg
  have ht : g.d.total = nx * nlat * nphi := by rw [hd]; rfl
  have hx' : g.d.nx = nx := by rw [hd]
  refine ⟨g.pRP v, g.prP v, g.p2rP v, by simp [ht], by simp [ht], by simp [ht], fun dv hdv => ⟨?_, ?_, ?_⟩, ?_⟩
  · exact hw.set_partial_R_eq (hv.trans ht.symm) (hdv.trans ht.symm)
  · exact hw.set_partial_r_eq (hv.trans ht.symm) (hdv.trans ht.symm)
  · exact hw.set_partial2_r_eq (hv.trans ht.symm) (hdv.trans ht.symm)
  · intro it ip hit hip r hr z1 z2 hz1 hz2
    have hrl := hr.1
    refine ⟨g.radial.derP r, g.radial.der2P r, hw.rad.der_eq hrl (hz1.trans hx'.symm),
      hw.rad.der12_eq hrl (hz1.trans hx'.symm) (hz2.trans hx'.symm), fun ix hix => ?_⟩
    have hin : g.d.InR ix it ip := ⟨by rw [hd]; exact hix, by rw [hd]; exact hit, by rw [hd]; exact hip⟩
    have hix' : ix < g.d.nx := hin.1
    rw [hr.eq]
    unfold Grid.pRP Grid.prP Grid.p2rP
    rw [hw.ok.at3_ofLines _ hin, hw.ok.at3_ofLines _ hin, hw.ok.at3_ofLines _ hin, hw.dR, hw.d2R, gv_tab hix', gv_tab hix']
    refine ⟨rfl, ?_, ?_⟩
    · unfold Grid.oprP; rw [gv_tab hix']
    · unfold Grid.op2rP; rw [gv_tab hix']

/-- C31, angular operators: every output value at `(ix,it,ip)` is the value at `(it,ip)` of the 2-d angular operator applied
to the shell `ix` of the input, all entries of the output are overwritten, independently of its previous content and of
uninitialised memory, and nothing goes out of bounds. -/
theorem C31_angular_operators (hE : E.Sized nx nl nm nlat nphi) (hz : Sizes E.useCheb nx nl nlat nphi) {cl lo up : α}
    (hg : Grid.ctor E cl lo up nx nl nm nlat nphi = .ok g) {v : List α} (hv : v.length = nx * nlat * nphi) :
    ∃ oP oL oX : List α, oP.length = nx * nlat * nphi ∧ oL.length = nx * nlat * nphi ∧ oX.length = nx * nlat * nphi ∧
      (∀ J dv, dv.length = nx * nlat * nphi → g.set_partial_phi J v dv = .ok oP ∧ g.set_spherical_lap J v dv = .ok oL ∧
        (OrdersOk nl nm → g.set_sphereX J v dv = .ok oX)) ∧
      ∀ ix, ix < nx → ∀ s, IsShell g.d v s ix → ∀ J z, z.length = nlat * nphi →
        ∃ sP sL sX, g.sphere.partial_phi J s z = .ok sP ∧ g.sphere.laplace_beltrami J s z = .ok sL ∧
          (OrdersOk nl nm → g.sphere.sphereX J s z = .ok sX) ∧ ∀ it ip, it < nlat → ip < nphi →
            g.d.at3 oP ix it ip = g.d.at2 sP it ip ∧ g.d.at3 oL ix it ip = g.d.at2 sL it ip ∧
            g.d.at3 oX ix it ip = g.d.at2 sX it ip := by
  obtain ⟨hw, hd, _⟩ := Grid.wf_of_ctor hE hz hg
  have ht : g.d.total = nx * nlat * nphi := by rw [hd]; rfl
  have hf : OrdersOk nl nm → g.Full := fun ho => hw.full (by rw [hd]; exact ho)
  refine ⟨g.pphiP v, g.plapP v, g.psphXP v, by simp [ht], by simp [ht], by simp [ht], fun J dv hdv => ⟨?_, ?_, ?_⟩, ?_⟩
  · exact hw.set_partial_phi_eq J (hv.trans ht.symm) (hdv.trans ht.symm)
  · exact hw.set_spherical_lap_eq J (hv.trans ht.symm) (hdv.trans ht.symm)
  · exact fun ho => hw.set_sphereX_eq (hf ho) J (hv.trans ht.symm) (hdv.trans ht.symm)
  · intro ix hix s hs J z hzl
    have h1 : s.length = g.sphere.nSph := hs.1.trans hw.nSph_eq.symm
    have h2 : z.length = g.sphere.nSph := by rw [hzl, hw.nSph_eq, hd]; rfl
    refine ⟨_, _, _, hw.sph.partial_phi_eq J h1 h2, hw.sph.laplace_eq J h1 h2, fun ho => hw.sph.sphereX_eq (hf ho) J h1 h2, ?_⟩
    intro it ip hit hip
    have hin : g.d.InR ix it ip := ⟨by rw [hd]; exact hix, by rw [hd]; exact hit, by rw [hd]; exact hip⟩
    rw [hs.eq hw.ok]
    unfold Grid.pphiP Grid.plapP Grid.psphXP
    rw [hw.ok.at3_ofShells _ hin, hw.ok.at3_ofShells _ hin, hw.ok.at3_ofShells _ hin]
    exact ⟨rfl, rfl, rfl⟩

/-- C31, spectrum: entry `(ix,l)` of the angular power spectrum, at position `ix*nl+l`, is entry `l` of the power spectrum
of shell `ix`; every entry is overwritten. -/
theorem C31_spectrum (hE : E.Sized nx nl nm nlat nphi) (hz : Sizes E.useCheb nx nl nlat nphi) {cl lo up : α}
    (hg : Grid.ctor E cl lo up nx nl nm nlat nphi = .ok g) {v : List α} (hv : v.length = nx * nlat * nphi) :
    ∃ o : List α, o.length = nx * nl ∧ (∀ J p, p.length = nx * nl → g.set_angular_power_spectrum J v p = .ok o) ∧
      ∀ ix, ix < nx → ∀ s, IsShell g.d v s ix → ∀ J z, z.length = nl →
        ∃ q, g.sphere.power_spectrum J s z = .ok q ∧ ∀ l, l < nl → gv o (nl * ix + l) = gv q l := by
  obtain ⟨hw, hd, _⟩ := Grid.wf_of_ctor hE hz hg
  have ht : g.d.total = nx * nlat * nphi := by rw [hd]; rfl
  have hx' : g.d.nx = nx := by rw [hd]
  have hl' : g.d.nl = nl := by rw [hd]
  refine ⟨g.specP v, by simp [Grid.specP, hx', hl'], fun J p hp => hw.spectrum_eq J (hv.trans ht.symm)
    (by rw [hp, hx', hl']), ?_⟩
  intro ix hix s hs J z hzl
  refine ⟨_, hw.sph.power_spectrum_eq J (hs.1.trans hw.nSph_eq.symm) (by rw [hzl, hw.lmax, hl']), fun l hl => ?_⟩
  unfold Grid.specP
  rw [hx', hl', gv_tab (Dims.mul_add_lt hix hl), (Dims.div_mod_lemma hl).1, (Dims.div_mod_lemma hl).2, hs.eq hw.ok]

/-! ## C30 -/

/-- C30, the part that holds: `filter` replaces every shell by its spherically filtered version, whatever the uninitialised
memory, and stays in bounds.  Missing: nothing is done along the radial direction (`C30_radial_filter_missing`). -/
theorem C30_angular_partial (hE : E.Sized nx nl nm nlat nphi) (hz : Sizes E.useCheb nx nl nlat nphi) {cl lo up : α}
    (hg : Grid.ctor E cl lo up nx nl nm nlat nphi = .ok g) {v : List α} (hv : v.length = nx * nlat * nphi) :
    ∃ o : List α, o.length = nx * nlat * nphi ∧ (∀ J, g.filter J v = .ok o) ∧
      ∀ ix, ix < nx → ∀ s, IsShell g.d v s ix → ∀ J, ∃ q, g.sphere.filter J s = .ok q ∧
        ∀ it ip, it < nlat → ip < nphi → g.d.at3 o ix it ip = g.d.at2 q it ip := by
  obtain ⟨hw, hd, _⟩ := Grid.wf_of_ctor hE hz hg
  have ht : g.d.total = nx * nlat * nphi := by rw [hd]; rfl
  refine ⟨g.filtP v, by simp [ht], fun J => hw.filter_eq J (hv.trans ht.symm), ?_⟩
  intro ix hix s hs J
  refine ⟨_, hw.sph.filter_eq J (hs.1.trans hw.nSph_eq.symm), fun it ip hit hip => ?_⟩
  have hin : g.d.InR ix it ip := ⟨by rw [hd]; exact hix, by rw [hd]; exact hit, by rw [hd]; exact hip⟩
  unfold Grid.filtP
  rw [hs.eq hw.ok, hw.ok.at3_ofShells _ hin]

end generic

/-! exact arithmetic -/

section exact
variable {E : Env CR} {nx nl nm nlat nphi : ℕ} {x : ℕ → ℝ} {A : ℕ → ℕ → ℕ → ℝ} {g : Grid CR}

theorem pos2_eq_spos (d : Dims) (it ip : ℕ) : d.pos2 it ip = spos d.contig d.nlat d.nphi it ip := rfl

theorem ThN00 (θ : ℝ) : ThN 0 0 θ = nrmY 0 0 := by
  unfold ThN
  simp [legP]

theorem nrmY00_pos : 0 < nrmY 0 0 := by
  unfold nrmY
  apply Real.sqrt_pos.mpr
  have := Real.pi_pos
  simp
  positivity

/-- the coefficients of a constant field -/
noncomputable def constCf (y : ℝ) (l m : ℕ) : ℂ := if l = 0 ∧ m = 0 then ((y / nrmY 0 0 : ℝ) : ℂ) else 0

theorem fieldR_const (L M : ℕ) (y θ φ : ℝ) : fieldR L M (constCf y) θ φ = y := by
  unfold fieldR
  rw [Finset.sum_eq_single 0]
  · have : Finset.Icc 1 (min 0 M) = ∅ := by simp
    rw [this, ThN00]
    simp [constCf, div_mul_cancel₀ _ nrmY00_pos.ne']
  · intro l _ hl
    have h0 : ∀ m, constCf y l m = 0 := fun m => by unfold constCf; rw [if_neg (by omega)]
    simp [h0]
  · simp

/-- a constant shell passes the spherical filter unchanged -/
theorem Sphere.Wf.filtP_const {s : Sphere CR} {contig : Bool} (h : s.Wf) (hm : s.sht.Math contig s.nlat s.nphi x A)
    {v : List CR} {y : ℝ} (hv : Samples contig s.nlat s.nphi x v (fun _ _ => y)) : s.filtP v = v := by
  have hv' : Samples contig s.nlat s.nphi x v (fieldR s.lmax s.mmax (constCf y)) :=
    ⟨hv.1, fun it ip a b => by rw [hv.2 it ip a b, fieldR_const]⟩
  have hr := samples_rep h hm (fun l _ => by
    unfold constCf
    split_ifs <;> simp) hv'
  have h2 := filtP_rep h (hm.roundTrip h.api) hr
  have h3 := rep_samples h hm (Rep.congr h2 (c' := constCf y) fun l m _ => by
    split_ifs with hc
    · unfold constCf
      split_ifs with h0
      · obtain ⟨rfl, rfl⟩ := h0
        simp [damp]
      · simp
    · rfl)
  apply list_ext_gv (by rw [h3.1, hv.1])
  intro k hk
  rw [h3.1] at hk
  obtain ⟨it, ip, a, b, rfl⟩ := spos_surj (contig := contig) hk
  rw [h3.2 it ip a b, hv'.2 it ip a b]

/-- C30 is false of the code: no radial filter is applied.  On the finite-difference grid the field that alternates in sign
from shell to shell passes through `filter` unchanged, although the radial filter applied to any of its lines would change
it (it removes exactly this mode). -/
theorem C30_radial_filter_missing (hE : E.Exact nx nl nm nlat nphi x A) (hz : Sizes E.useCheb nx nl nlat nphi)
    (_hfd : E.useCheb = false) (h9 : 9 ≤ nx) {lo up : ℝ} {cl : CR}
    (hg : Grid.ctor E cl (fin lo) (fin up) nx nl nm nlat nphi = .ok g) :
    ∃ v : List CR, v.length = nx * nlat * nphi ∧ (∀ J, g.filter J v = .ok v) ∧
      ∀ it ip, it < nlat → ip < nphi → ∀ r, IsLine g.d v r it ip →
        ∃ w ix, (FD.mk' nx (fin lo) (fin up) E.ndebug).filter r = .ok w ∧ ix < nx ∧ gv w ix ≠ g.d.at3 v ix it ip := by
  obtain ⟨hw, hd, _, _, hs⟩ := Grid.wf_of_ctor hE.sized hz hg
  have ht : g.d.total = nx * nlat * nphi := by rw [hd]; rfl
  have hW := hz.two.2
  let F : ℕ → ℕ → ℕ → CR := fun ix _ _ => fin (Real.cos (Real.pi * ix + 0))
  have hm : g.sphere.sht.Math g.d.contig g.sphere.nlat g.sphere.nphi x A := by
    rw [hs, hw.nlat, hw.nphi, hd]; exact hE.math
  refine ⟨g.d.mk3 F, by simp [ht], fun J => ?_, ?_⟩
  · rw [hw.filter_eq J (by simp)]
    unfold Grid.filtP Dims.ofShells
    congr 1
    apply Dims.mk3_congr
    intro ix it ip hin
    have hsam : Samples g.d.contig g.sphere.nlat g.sphere.nphi x (g.d.shellOf (g.d.mk3 F) ix)
        (fun _ _ => Real.cos (Real.pi * ix + 0)) := by
      refine ⟨by rw [Dims.shellOf_length, hw.nlat, hw.nphi]; rfl, fun it ip a b => ?_⟩
      rw [hw.nlat] at a ⊢
      rw [hw.nphi] at b ⊢
      have := hw.ok.at2_mk2 (F := fun it ip => g.d.at3 (g.d.mk3 F) ix it ip) a b
      unfold Dims.at2 at this
      rw [hw.ok.indx2 a b] at this
      unfold Dims.shellOf
      rw [← pos2_eq_spos, this, hw.ok.at3_mk3 ⟨hin.1, a, b⟩]
    beta_reduce
    rw [hw.sph.filtP_const hm hsam]
    unfold Dims.shellOf
    rw [hw.ok.at2_mk2 hin.2.1 hin.2.2, hw.ok.at3_mk3 hin]
  · intro it ip hit hip r hr
    have hxe : g.d.nx = nx := by rw [hd]
    have hin : ∀ ix, ix < nx → g.d.InR ix it ip := fun ix h =>
      ⟨by rw [hd]; exact h, by rw [hd]; exact hit, by rw [hd]; exact hip⟩
    have hre : r = tab nx fun i => fin (Real.cos (Real.pi * i + 0)) := by
      rw [← tab_gv' (hr.1.trans hxe)]
      exact tab_congr fun i hi => by rw [hr.2 i (hin i hi).1, hw.ok.at3_mk3 (hin i hi)]
    obtain ⟨w, h1, _, h2⟩ := C16_filter_symbol (FD.mk' nx (fin lo) (fin up) E.ndebug) (by show 4 ≤ nx; omega) hW Real.pi 0
    refine ⟨w, 4, by rw [hre]; exact h1, by omega, ?_⟩
    rw [h2 4 (le_refl _) (by show 4 < nx - 4; omega), hw.ok.at3_mk3 (hin 4 (by omega))]
    simp only [F, ne_eq, fin_inj]
    have : Real.sin (Real.pi / 2) = 1 := Real.sin_pi_div_two
    rw [this]
    norm_num
    have h4 : Real.cos (Real.pi * 4) = 1 := by
      have := Real.cos_nat_mul_two_pi 2
      rw [← this]; congr 1; push_cast; ring
    rw [h4]; norm_num

/-! ## C32 -/

/-- The radial derivative members on a polynomial profile. -/
theorem radial_poly (hE : E.Sized nx nl nm nlat nphi) (hf : E.useCheb = true → FftwOk nx (E.dct nx))
    (hz : Sizes E.useCheb nx nl nlat nphi) {lo up : ℝ} (hlu : lo < up) {P : ℝ[X]}
    (hP : if E.useCheb then P.degree < (nx - 2 : ℕ) else P.natDegree ≤ 6) {r : List CR}
    (hr : r = tab nx fun i => fin (P.eval (radPt E.useCheb nx lo up i))) {i : ℕ} (hi : i < nx) :
    gv ((Grid.radialOf E (fin lo) (fin up) nx).derP r) i = fin ((derivative P).eval (radPt E.useCheb nx lo up i)) ∧
    gv ((Grid.radialOf E (fin lo) (fin up) nx).der2P r) i =
      fin ((derivative (derivative P)).eval (radPt E.useCheb nx lo up i)) := by
  obtain ⟨h2, hW⟩ := hz.two
  have hmin := hz.nx_min
  unfold Grid.radialOf
  cases hc : E.useCheb
  · rw [hc] at hP hr hmin
    simp only [Bool.false_eq_true, if_false] at hP hmin ⊢
    have hx : ∀ i, (FD.mk' nx (fin lo) (fin up) E.ndebug).pt i = fin (radPt false nx lo up i) := fun i => by
      rw [C10_points nx h2 hW]; simp [radPt]
    have e1 := C11_der_exact nx (by omega) hW lo up hlu E.ndebug _ hx P hP r (by rw [hr]; simp)
    have e2 := C12_der2_exact nx (by omega) hW lo up hlu E.ndebug _ hx P (by omega) r (by rw [hr]; simp)
    rw [← hr] at e1 e2
    rw [FD.der_eq _ (by show 7 ≤ nx; omega) hW (by rw [hr]; simp; rfl) (by rw [hr]; simp; rfl)] at e1
    rw [FD.der2_eq _ (by show 8 ≤ nx; omega) hW (by rw [hr]; simp; rfl) (by rw [hr]; simp; rfl)] at e2
    simp only [Except.ok.injEq] at e1 e2
    constructor
    · show gv (tab _ _) i = _
      rw [e1, gv_tab hi]
    · show gv (tab _ _) i = _
      rw [e2, gv_tab hi]
  · rw [hc] at hP hr hmin
    simp only [if_true] at hP hmin ⊢
    have hcc := Cheb.mk'_eq nx (fin lo) (fin up) (E.dct nx) E.ndebug
    have hfw := hf hc
    have hrp : ∀ i, radPt true nx lo up i = chebPt nx lo up i := fun i => by simp [radPt]
    simp only [hrp] at hr ⊢
    have key : ∀ c, Cheb.mk' nx (fin lo) (fin up) (E.dct nx) true E.ndebug = .ok c → ∀ Q : ℝ[X], Q.degree < (nx - 2 : ℕ) →
        c.derP (tab nx fun i => fin (Q.eval (chebPt nx lo up i))) = tab nx fun i => fin (Q.derivative.eval (chebPt nx lo up i)) := by
      intro c hcc Q hQ
      have hb := built h2 hW hfw hcc
      have e1 := C20_exact_partial h2 hW hlu hfw hcc hQ (o := r) (by rw [hr]; simp)
      rw [Cheb.der_eq hb.wf (by simp [hb.n]) (by rw [hr, hb.n]; simp)] at e1
      simpa using e1
    have hP' : (derivative P).degree < (nx - 2 : ℕ) := lt_of_le_of_lt (degree_derivative_le) hP
    constructor
    · show gv (Cheb.derP _ r) i = _
      rw [hr, key _ hcc P hP, gv_tab hi]
    · show gv (Cheb.derP _ (Cheb.derP _ r)) i = _
      rw [hr, key _ hcc P hP, key _ hcc _ hP', gv_tab hi]

/-- C32: on fields whose radial profile is a polynomial in the compactified radius `R` that the grid resolves (degree at most 6 for
finite differences, below `nx-2` for Chebyshev), `set_partial_r` and `set_partial2_r` return exactly the first and second
derivative with respect to the physical radius `r` of `r ↦ P(R(r))` at every grid point, and 0 at infinity (`R=L`). -/
theorem C32_chain_rule (hE : E.Sized nx nl nm nlat nphi) (hf : E.useCheb = true → FftwOk nx (E.dct nx))
    (hz : Sizes E.useCheb nx nl nlat nphi) {L lo up : ℝ} (hL : 0 < L) (hlu : lo < up)
    (hg : Grid.ctor E (fin L) (fin lo) (fin up) nx nl nm nlat nphi = .ok g) (P : ℕ → ℕ → ℝ[X])
    (hP : ∀ it ip, if E.useCheb then (P it ip).degree < (nx - 2 : ℕ) else (P it ip).natDegree ≤ 6) {v dv : List CR}
    (hv : v.length = nx * nlat * nphi) (hd : dv.length = nx * nlat * nphi)
    (hval : ∀ ix it ip, ix < nx → it < nlat → ip < nphi →
      g.d.at3 v ix it ip = fin ((P it ip).eval (radPt E.useCheb nx lo up ix))) :
    ∃ o1 o2, g.set_partial_r v dv = .ok o1 ∧ g.set_partial2_r v dv = .ok o2 ∧
      ∀ ix it ip, ix < nx → it < nlat → ip < nphi → ∃ y1 y2 : ℝ,
        g.d.at3 o1 ix it ip = fin y1 ∧ g.d.at3 o2 ix it ip = fin y2 ∧
        ∀ R, R = radPt E.useCheb nx lo up ix →
          (0 < R → R < L → HasDerivAt (fun r => (P it ip).eval (compR L r)) y1 (physR L R) ∧
            HasDerivAt (deriv fun r => (P it ip).eval (compR L r)) y2 (physR L R)) ∧
          (R = L → y1 = 0 ∧ y2 = 0) := by
  obtain ⟨hw, hdd, hcl, hr, _⟩ := Grid.wf_of_ctor hE hz hg
  have ht : g.d.total = nx * nlat * nphi := by rw [hdd]; rfl
  refine ⟨_, _, hw.set_partial_r_eq (hv.trans ht.symm) (hd.trans ht.symm),
    hw.set_partial2_r_eq (hv.trans ht.symm) (hd.trans ht.symm), ?_⟩
  intro ix it ip hix hit hip
  have hxe : g.d.nx = nx := by rw [hdd]
  have hin : ∀ ix, ix < nx → g.d.InR ix it ip := fun ix h =>
      ⟨by rw [hdd]; exact h, by rw [hdd]; exact hit, by rw [hdd]; exact hip⟩
  have hline : g.d.lineOf v it ip = tab nx fun i => fin ((P it ip).eval (radPt E.useCheb nx lo up i)) := by
    unfold Dims.lineOf
    rw [hxe]
    exact tab_congr fun i hi => hval i it ip hi hit hip
  obtain ⟨k1, k2⟩ := radial_poly hE hf hz hlu (hP it ip) hline hix
  have hp : g.radial.ptV ix = fin (radPt E.useCheb nx lo up ix) := by
    rw [hr]; exact radialOf_pt hz.two.1 hz.two.2 lo up hix
  set R := radPt E.useCheb nx lo up ix with hRdef
  have e1 : g.dRV ix = fin ((1 - R / L) ^ 2) := by
    unfold Grid.dRV; rw [hp, hcl]; simp [hL.ne']
  have e2 : g.d2RV ix = fin (-2 / L * (1 - R / L) ^ 3) := by
    unfold Grid.d2RV; rw [hp, hcl]; simp [hL.ne']
  refine ⟨(derivative (P it ip)).eval R * (1 - R / L) ^ 2,
    -2 / L * (1 - R / L) ^ 3 * (derivative (P it ip)).eval R
      + ((1 - R / L) ^ 2) ^ 2 * (derivative (derivative (P it ip))).eval R, ?_, ?_, ?_⟩
  · unfold Grid.prP
    rw [hw.ok.at3_ofLines _ (hin ix hix)]
    unfold Grid.oprP
    rw [gv_tab (by rw [hxe]; exact hix), hr, k1, e1, fin_mul]
  · unfold Grid.p2rP
    rw [hw.ok.at3_ofLines _ (hin ix hix)]
    unfold Grid.op2rP
    rw [gv_tab (by rw [hxe]; exact hix), hr, k1, k2, e1, e2]
    simp
  · rintro R' rfl
    refine ⟨fun h0 h1 => ?_, fun h => by rw [h, div_self hL.ne']; simp⟩
    have hpos : 0 < physR L R := by
      unfold physR
      have : 0 < 1 - R / L := by rw [sub_pos, div_lt_one hL]; exact h1
      positivity
    have c1 : ∀ r, 0 < r → HasDerivAt (fun r => (P it ip).eval (compR L r))
        ((derivative (P it ip)).eval (compR L r) * (1 - compR L r / L) ^ 2) r := fun r hr =>
      ((P it ip).hasDerivAt (compR L r)).comp r (compR_deriv hL hr.le)
    have hback := compR_physR hL h1
    constructor
    · have := c1 _ hpos
      rwa [hback] at this
    · have d1 : HasDerivAt (fun r => (derivative (P it ip)).eval (compR L r))
          ((derivative (derivative (P it ip))).eval (compR L (physR L R)) * (1 - compR L (physR L R) / L) ^ 2) (physR L R) :=
        ((derivative (P it ip)).hasDerivAt _).comp _ (compR_deriv hL hpos.le)
      have d2 : HasDerivAt (fun r => (1 - compR L r / L) ^ 2)
          (-2 / L * (1 - compR L (physR L R) / L) ^ 3) (physR L R) := by
        refine (compR_deriv2 hL hpos).congr_of_eventuallyEq ?_
        filter_upwards [lt_mem_nhds hpos] with s hs
        exact (compR_deriv hL hs.le).deriv.symm
      have h3 := (d1.mul d2).congr_of_eventuallyEq (f₁ := deriv fun r => (P it ip).eval (compR L r)) (by
        filter_upwards [lt_mem_nhds hpos] with s hs
        exact (c1 s hs).deriv)
      refine h3.congr_deriv ?_
      rw [hback]
      ring

/-- non-vacuity of C30-C32: a finite-difference grid of 33x8x16 points with `nl=nm=7`, on `[1,100]` with `L=100`, in a debug
build, with libraries meeting their documentation. -/
example : ∃ (E : Env CR) (x : ℕ → ℝ) (A : ℕ → ℕ → ℕ → ℝ) (g : Grid CR), E.Exact 33 7 7 8 16 x A ∧
    Sizes E.useCheb 33 7 8 16 ∧ E.useCheb = false ∧ Grid.ctor E (fin 100) (fin 1) (fin 100) 33 7 7 8 16 = .ok g := by
  obtain ⟨E, x, A, h1, h2, h3, h4⟩ := exists_env true false false (nx := 33) (nl := 7) (nm := 7) (nlat := 8) (nphi := 16)
    (by omega) (by omega) (by omega)
  have hz : Sizes E.useCheb 33 7 8 16 := ⟨by rw [h3]; decide, by omega, by omega, by decide, by decide, by omega⟩
  obtain ⟨g, hg, _⟩ := Grid.ctor_wf h4.sized hz (fin 100) (fin 1) (fin 100)
  exact ⟨E, x, A, g, h4, hz, h3, hg⟩

end exact

end SFK
