import Verif.Lemmas.Axisym
import Verif.Props.Symmetry
import Mathlib.Topology.Algebra.Order.Field
/-
C51, the part that fails: with two or more orders missing (`nm≤nl-2`, as in runscript_template.py: `nl=20`, `nm=18`) the code does not
preserve axisymmetry.
-/
namespace SFK
open Scalar CR Kerr

section sphere
variable {s : Sphere CR} {contig : Bool} {x : ℕ → ℝ} {A : ℕ → ℕ → ℕ → ℝ}

/-- value of `sphereX` on a representable field, whatever the orders -/
theorem sphXP_rep (h : s.Wf) (hm : s.sht.Math contig s.nlat s.nphi x A) (hd : s.lmax ^ 2 ≤ s.sht.ncp) {v : List CR} {c : ℕ → ℕ → ℂ}
    (hrep : s.sht.Rep v c) {it ip : ℕ} (h1 : it < s.nlat) (h2 : ip < s.nphi) :
    gv (s.sphXP v) (spos contig s.nlat s.nphi it ip) = fin (sphXG s.lmax s.mmax c (Real.arccos (x it)) (phiN s.nphi ip)) := by
  have hemb := hm.emb h.api hrep
  rw [h.api.mmax_eq] at hemb
  have hq := (hm.roundTrip h.api).cplx _ _ hemb
  have r1 : s.sht.RepC (s.ladP s.raiseP v) (raisedG s.lmax s.mmax (extC s.mmax c)) := ⟨_, raiseP_coefs h hq, rfl⟩
  have r2 : s.sht.RepC (s.ladP s.lowerP v) (loweredG s.lmax s.mmax (extC s.mmax c)) := ⟨_, lowerP_coefs h hd hq, rfl⟩
  have r3 := phiP_rep h (hm.roundTrip h.api) hrep
  unfold Sphere.sphXP
  rw [gv_tab (by rw [h.nSph']; exact spos_lt h1 h2), (repC_samples h hm r1).2 it ip h1 h2,
    (repC_samples h hm r2).2 it ip h1 h2, (rep_samples h hm r3).2 it ip h1 h2]
  unfold sphXG phiC
  simp only [toCx, Cx.mul, fin_mul, fin_sub, fin_neg, fin_pown, fin_add]
  congr 1

theorem axi_real (L M : ℕ) (a b : ℝ) (l : ℕ) : (axiC L M a b l 0).im = 0 := by
  unfold axiC
  split_ifs <;> simp

theorem gap_ncp (h : s.Wf) (hg : Gap s.lmax s.mmax) : s.lmax ^ 2 ≤ s.sht.ncp := by
  rw [Shtns.ncp_prow (s := s.sht) h.api.mmax_le, h.api.lmax_eq, h.api.mmax_eq]
  exact hg.ncp

theorem cos_phi1 {n : ℕ} (hn : 3 ≤ n) : Real.cos (phiN n 1) < Real.cos (phiN n 0) := by
  have h1 : (3 : ℝ) ≤ n := by exact_mod_cast hn
  have hp := Real.pi_pos
  have e0 : phiN n 0 = 0 := by unfold phiN; simp
  have h2 : 0 < phiN n 1 := by unfold phiN; push_cast; positivity
  have h3 : phiN n 1 ≤ Real.pi := by
    unfold phiN
    rw [div_le_iff₀ (by linarith)]
    push_cast
    nlinarith
  rw [e0]
  exact Real.cos_lt_cos_of_nonneg_of_le_pi (le_refl 0) h3 h2

theorem axi_differs {L M : ℕ} (hg : Gap L M) {a θ : ℝ} (ha : a ≠ 0) (h0 : ThN L 0 θ ≠ 0) (h1 : ThN (M + 1) 1 θ ≠ 0) {n : ℕ} (hn : 3 ≤ n) :
    sphXG L M (axiC L M a a) θ (phiN n 0) ≠ sphXG L M (axiC L M a a) θ (phiN n 1) := by
  rw [hg.sphXG_axi, hg.sphXG_axi]
  intro he
  have hf := Gap.factor M
  have h2 := cos_phi1 hn
  have : a ^ 2 * ((Real.sqrt ((M + 2) * (M + 1)) - Real.sqrt (M * (M + 3))) * ThN (M + 1) 1 θ * ThN L 0 θ
      * (Real.cos (phiN n 0) - Real.cos (phiN n 1))) = 0 := by
    linear_combination -he
  replace this := (mul_eq_zero.mp this).resolve_left (pow_ne_zero 2 ha)
  rcases mul_eq_zero.mp this with h | h
  · rcases mul_eq_zero.mp h with h | h
    · rcases mul_eq_zero.mp h with h | h
      · linarith
      · exact h1 h
    · exact h0 h
  · linarith

/-- **C51**, violated: with two or more orders missing (`nm≤nl-2`, and not so many that `(nl-nm)^2≥nl`) there is, on every grid with
distinct polar nodes and more than `nl+nm` of them, an axisymmetric field whose squared angular gradient, as the code computes it, depends
on the azimuth, whatever the uninitialised memory contains. -/
theorem C51_gradient_not_axisymmetric (h : s.Wf) (hm : s.sht.Math contig s.nlat s.nphi x A) (h1 : 1 ≤ s.mmax) (h2 : s.mmax + 2 ≤ s.lmax)
    (h3 : (s.lmax - s.mmax) ^ 2 < s.lmax) (hx : ∀ i j, i < s.nlat → j < s.nlat → x i = x j → i = j) (hn : s.lmax + s.mmax < s.nlat)
    {out : List CR} (ho : out.length = s.nSph) :
    ∃ v it, v.length = s.nSph ∧ it < s.nlat ∧
      (∀ it ip ip', it < s.nlat → ip < s.nphi → ip' < s.nphi →
        gv v (spos contig s.nlat s.nphi it ip) = gv v (spos contig s.nlat s.nphi it ip')) ∧
      ∀ J, ∃ w, s.sphereX J v out = .ok w ∧ gv w (spos contig s.nlat s.nphi it 0) ≠ gv w (spos contig s.nlat s.nphi it 1) := by
  have hg : Gap s.lmax s.mmax := ⟨h1, h2, h3⟩
  obtain ⟨it, hit, t0, t1⟩ := exists_node hn hm.inside hx
  obtain ⟨v, hv⟩ := exists_rep h (axiC s.lmax s.mmax 1 1) (axi_real _ _ _ _)
  have hs := rep_samples h hm hv
  have h4 : 3 ≤ s.nphi := by
    have := hm.nphi_gt
    rw [h.api.mmax_eq] at this
    omega
  have hvl : v.length = s.nSph := Rep.len h hv
  refine ⟨v, it, hvl, hit, fun it ip ip' a b c => ?_, fun J => ⟨_, h.sphereX_eq (gap_ncp h hg) J hvl ho, ?_⟩⟩
  · rw [hs.2 it ip a b, hs.2 it ip' a c, Gap.fieldR_axi]
  · rw [sphXP_rep h hm (gap_ncp h hg) hv hit (by omega), sphXP_rep h hm (gap_ncp h hg) hv hit (by omega)]
    intro he
    rw [fin_inj] at he
    exact axi_differs hg one_ne_zero t0 t1 h4 he

/-- The template's angular resolution (`nl=20`, `nm=18`, `nlat=nphi=40`) meets all hypotheses. -/
example : ∃ (s : Sphere CR) (x : ℕ → ℝ) (A : ℕ → ℕ → ℕ → ℝ), s.Wf ∧ s.sht.Math false s.nlat s.nphi x A ∧ s.lmax = 20 ∧ s.mmax = 18 ∧
    s.nlat = 40 ∧ s.nphi = 40 ∧ 1 ≤ s.mmax ∧ s.mmax + 2 ≤ s.lmax ∧ (s.lmax - s.mmax) ^ 2 < s.lmax ∧
    (∀ i j, i < s.nlat → j < s.nlat → x i = x j → i = j) ∧ s.lmax + s.mmax < s.nlat := by
  obtain ⟨t, x, A, h1, h2, h3⟩ := exists_shtns_inj false (L := 20) (M := 18) (nlat := 40) (nphi := 40) (by omega) (by omega) (by omega)
  obtain ⟨s, _, hw, a, b, c, d, e, f⟩ := Sphere.mk'_wf (nd := false) h1 rfl (by norm_num)
  subst e
  refine ⟨s, x, A, hw, by rw [c, d]; exact h2, a, b, c, d, by omega, by omega, by rw [a, b]; norm_num, by rw [c]; exact h3, by omega⟩

end sphere

/-! ## The time derivative -/

section run
variable {E : Env CR} {P : ParamRec CR} {g : Grid CR} {q : Phys} {x : ℕ → ℝ} {A : ℕ → ℕ → ℕ → ℝ} {e : Eom CR}

theorem IsF.shell {d : Dims} (h : d.Ok) {v : List CR} {u : ℕ → ℝ} (hv : IsF d.total v u) {ix : ℕ} (hx : ix < d.nx) :
    Is2 d.contig d.nlat d.nphi (d.shellOf v ix) (fun it ip => u (d.pos3 ix it ip)) := by
  refine ⟨by rw [Dims.shellOf_length]; rfl, fun it ip ht hp => ?_⟩
  have := h.at2_mk2 (F := fun it ip => d.at3 v ix it ip) ht hp
  unfold Dims.at2 at this
  rw [h.indx2 ht hp] at this
  unfold Dims.shellOf
  rw [← pos2_eq_spos, this, hv.at3 h ⟨hx, ht, hp⟩]

/-- the kinetic function near field value zero -/
theorem kin_near (q : Phys) (h1 : q.k0 + q.km1 ≠ 0) (h2 : q.k1 ≠ q.km1) (t : ℝ) :
    ∃ a : ℝ, a ≠ 0 ∧ a * t ≠ -1 ∧ q.kin (a * t) ≠ 0 ∧ deriv q.kin (a * t) ≠ 0 := by
  have c0 : ContinuousAt (fun a : ℝ => a * t) 0 := by fun_prop
  have c1 : ContinuousAt q.kin 0 := (kin_deriv (by norm_num)).continuousAt
  have c2 : ContinuousAt (fun y : ℝ => -q.km1 / (y + 1) ^ 2 + q.k1 + q.k2 * y) 0 := by
    apply ContinuousAt.add
    · apply ContinuousAt.add _ continuousAt_const
      apply ContinuousAt.div continuousAt_const (by fun_prop) (by norm_num)
    · fun_prop
  have f1 : ∀ᶠ a : ℝ in nhds 0, q.kin (a * t) ≠ 0 := by
    have hc : ContinuousAt (fun a : ℝ => q.kin (a * t)) 0 := ContinuousAt.comp (g := q.kin) (f := fun a : ℝ => a * t) (by rw [zero_mul]; exact c1) c0
    apply hc.eventually_ne
    simp only [zero_mul]
    unfold Phys.kin Kerr.kin
    intro h
    apply h1
    norm_num at h
    linarith
  have f2 : ∀ᶠ a : ℝ in nhds 0, -q.km1 / (a * t + 1) ^ 2 + q.k1 + q.k2 * (a * t) ≠ 0 := by
    have hc : ContinuousAt (fun a : ℝ => -q.km1 / (a * t + 1) ^ 2 + q.k1 + q.k2 * (a * t)) 0 :=
      ContinuousAt.comp (g := fun y : ℝ => -q.km1 / (y + 1) ^ 2 + q.k1 + q.k2 * y) (f := fun a : ℝ => a * t) (by rw [zero_mul]; exact c2) c0
    apply hc.eventually_ne
    simp only [zero_mul]
    intro h
    apply h2
    norm_num at h
    linarith
  have f3 : ∀ᶠ a : ℝ in nhds 0, a * t ≠ -1 := by
    apply c0.eventually_ne
    simp
  have f4 : ∀ᶠ a : ℝ in nhdsWithin 0 {0}ᶜ, a ≠ 0 := eventually_mem_nhdsWithin
  obtain ⟨a, ⟨⟨g1, g2⟩, g3⟩, g4⟩ := ((((f1.and f2).and f3).filter_mono nhdsWithin_le_nhds).and f4).exists
  have : deriv q.kin (a * t) = _ := (kin_deriv g3).deriv
  exact ⟨a, g4, g3, g1, by rw [this]; exact g2⟩

theorem sphereX_coef_pos {M r : ℝ} (hM : 0 < M) (hr : 0 < r) (a θ : ℝ) : 0 < (docCoef M a r θ).p_sphereX_f := by
  have hS : 0 < Sig a r θ := by unfold Sig; positivity
  show 0 < 1 / Sig a r θ / (1 + 2 * M * r / Sig a r θ)
  positivity

theorem pkR_ang_ne {q : Phys} {c : Coef ℝ} {psi v r vv vr rr phi rphi lap a₀ a₁ : ℝ} (hc : 0 < c.p_sphereX_f) (h1 : q.kin psi ≠ 0)
    (h2 : deriv q.kin psi ≠ 0) (h : a₀ ≠ a₁) :
    pkR q c ⟨psi, v, r, vv, vr, rr, phi, rphi, lap, a₀⟩ ≠ pkR q c ⟨psi, v, r, vv, vr, rr, phi, rphi, lap, a₁⟩ := by
  intro he
  unfold pkR at he
  dsimp only at he
  have : deriv q.kin psi * (1 / q.kin psi) * c.p_sphereX_f * (a₀ - a₁) = 0 := by linear_combination 2 * he
  have h3 : a₀ - a₁ ≠ 0 := sub_ne_zero.mpr h
  have h4 : 1 / q.kin psi ≠ 0 := one_div_ne_zero h1
  exact mul_ne_zero (mul_ne_zero (mul_ne_zero h2 h4) hc.ne') h3 this

/-- **C51**, violated in the evolution: on the grids of C51_gradient_not_axisymmetric, for every kinetic function with `k(0)≠0`, `k'(0)≠0`
and every shell at a finite radius, there is an axisymmetric state (at rest, and finite) for which the code computes finite second time
derivatives that differ between two points of the same ring. -/
theorem C51_axisymmetry_violated (h : Exact E P g q x A) (he : Eom.Of g P e) (hq : q.Ok) (h1 : 1 ≤ P.nm) (h2 : P.nm + 2 ≤ P.nl)
    (h3 : (P.nl - P.nm) ^ 2 < P.nl) (hx : ∀ i j, i < P.nlat → j < P.nlat → x i = x j → i = j) (hn : P.nl + P.nm < P.nlat)
    (hk0 : q.k0 + q.km1 ≠ 0) (hk1 : q.k1 ≠ q.km1) {ix : ℕ} (hix : ix < P.nx) (hR : 0 < radPt E.useCheb P.nx q.lo q.up ix)
    (hL : 1 / 10 ^ 16 < q.L - radPt E.useCheb P.nx q.lo q.up ix) {fk pk : List CR} (hfk : fk.length = P.nx * P.nlat * P.nphi)
    (hpk : pk.length = P.nx * P.nlat * P.nphi) :
    ∃ (f p : List CR) (it : ℕ), f.length = P.nx * P.nlat * P.nphi ∧ p.length = P.nx * P.nlat * P.nphi ∧ AllFin f ∧ AllFin p ∧ it < P.nlat ∧
      (∀ k, Rotated g.d k f f ∧ Rotated g.d k p p) ∧
      ∀ J, ∃ e' fk' pk' y₀ y₁, e.set_k g J f p fk pk = .ok (e', fk', pk') ∧
        g.d.at3 pk' ix it 0 = fin y₀ ∧ g.d.at3 pk' ix it 1 = fin y₁ ∧ y₀ ≠ y₁ := by
  have hS := h.setup
  have hw := hS.wf
  have hm := h.math
  have ht := hS.total
  have d1 : g.sphere.lmax = P.nl := by rw [hw.lmax, hS.dims]
  have d2 : g.sphere.mmax = P.nm := by rw [hw.mmax, hS.dims]
  have d3 : g.sphere.nlat = P.nlat := by rw [hw.nlat, hS.dims]
  have d4 : g.sphere.nphi = P.nphi := by rw [hw.nphi, hS.dims]
  have hg : Gap P.nl P.nm := ⟨h1, h2, h3⟩
  have hphi : 3 ≤ P.nphi := by
    have := hm.nphi_gt
    rw [hw.sph.api.mmax_eq, d2, d4] at this
    omega
  have hin := hm.inside
  rw [d3] at hin
  obtain ⟨it, hit, t0, t1⟩ := exists_node hn hin hx
  obtain ⟨T, hT⟩ : ∃ T : ℝ, ∀ a φ, fieldR P.nl P.nm (axiC P.nl P.nm a a) (Real.arccos (x it)) φ = a * T := by
    refine ⟨fieldR P.nl P.nm (axiC P.nl P.nm 1 1) (Real.arccos (x it)) 0, fun a φ => ?_⟩
    rw [Gap.fieldR_axi (φ' := 0)]
    have := congrFun (congrFun (fieldR_smul_fun P.nl P.nm (axiC P.nl P.nm 1 1) a) (Real.arccos (x it))) 0
    rw [← this]
    congr 1
    funext l m
    unfold axiC
    split_ifs <;> simp
  obtain ⟨a, ha, ka, kb, kc⟩ := kin_near q hk0 hk1 T
  obtain ⟨y, hy⟩ : ∃ y : ℕ → ℝ, y = fun i => fieldR P.nl P.nm (axiC P.nl P.nm a a) (Real.arccos (x (g.d.dT i))) 0 := ⟨_, rfl⟩
  obtain ⟨F, hFd⟩ : ∃ F : List CR, F = tab g.d.total fun i => fin (y i) := ⟨_, rfl⟩
  obtain ⟨Q, hQd⟩ : ∃ Q : List CR, Q = tab g.d.total fun _ => fin 0 := ⟨_, rfl⟩
  have hF : IsF g.d.total F y := ⟨by rw [hFd]; simp, fun i hi => by rw [hFd, gv_tab hi]⟩
  have hQ : IsF g.d.total Q fun _ => 0 := ⟨by rw [hQd]; simp, fun i hi => by rw [hQd, gv_tab hi]⟩
  have hFr : ∀ k i, i < g.d.total → gv F i = gv F (g.d.rot k i) := by
    intro k i hi
    obtain ⟨r1, r2, r3⟩ := g.d.rot_dec (k := k) hi
    rw [hF.2 i hi, hF.2 _ (g.d.rot_lt hi), hy]
    beta_reduce
    rw [r2]
  have hQr : ∀ k i, i < g.d.total → gv Q i = gv Q (g.d.rot k i) := by
    intro k i hi
    rw [hQ.2 i hi, hQ.2 _ (g.d.rot_lt hi)]
  refine ⟨F, Q, it, by rw [hF.1, ht], by rw [hQ.1, ht], (allFin_iff hF.1).mpr fun i hi => ⟨_, hF.2 i hi⟩,
    (allFin_iff hQ.1).mpr fun i hi => ⟨_, hQ.2 i hi⟩, hit, fun k => ⟨(rotated_iff hw.ok k _ _).mpr (hFr k), (rotated_iff hw.ok k _ _).mpr (hQr k)⟩, ?_⟩
  -- the ring
  have hr0 := hS.inR hix hit (show 0 < P.nphi by omega)
  have hr1 := hS.inR hix hit (show 1 < P.nphi by omega)
  have hrot : g.d.rot 1 (g.d.pos3 ix it 0) = g.d.pos3 ix it 1 := by
    rw [g.d.rot_pos3 hr0, Nat.mod_eq_of_lt (by rw [hS.dims]; show 0 + 1 < P.nphi; omega)]
  obtain ⟨i0, hi0⟩ : ∃ i, i = g.d.pos3 ix it 0 := ⟨_, rfl⟩
  obtain ⟨i1, hi1⟩ : ∃ i, i = g.d.pos3 ix it 1 := ⟨_, rfl⟩
  have l0 : i0 < g.d.total := by rw [hi0]; exact g.d.pos3_lt hr0
  have l1 : i1 < g.d.total := by rw [hi1]; exact g.d.pos3_lt hr1
  rw [← hi0, ← hi1] at hrot
  have hρ : ∀ i, i < g.d.total → g.d.rot 1 i < g.d.total := fun i hi => g.d.rot_lt hi
  -- linear derivatives agree
  obtain ⟨pr, p2r, ph, lap, fl, o⟩ := h.ops
  have e1 := (rot_acts hρ o.pr.1 (o.pr.2.2 1) hF hF.1 (hFr 1)).2 i0 l0
  have e2 := (rot_acts hρ o.pr.1 (o.pr.2.2 1) hQ hQ.1 (hQr 1)).2 i0 l0
  have e3 := (rot_acts hρ o.p2r.1 (o.p2r.2.2 1) hF hF.1 (hFr 1)).2 i0 l0
  have e4 := (rot_acts hρ o.ph.1 (o.ph.2.2 1) hF hF.1 (hFr 1)).2
  have e5 := (rot_acts hρ o.pr.1 (o.pr.2.2 1) (o.ph.1 _ _ hF) (by simp) e4).2 i0 l0
  have e7 := (rot_acts hρ o.lap.1 (o.lap.2.2 1) hF hF.1 (hFr 1)).2 i0 l0
  have e4 := e4 i0 l0
  have eF := hFr 1 i0 l0
  have eQ := hQr 1 i0 l0
  rw [hrot] at e1 e2 e3 e4 e5 e7 eF eQ
  have hF0 : gv F i0 = fin (a * T) := by
    rw [hF.2 i0 l0, hy]
    beta_reduce
    have : g.d.dT i0 = it := by rw [hi0]; exact g.d.dT_pos3 hr0
    rw [this, hT]
  -- the squared gradient
  have hX : ∀ ip, ip < P.nphi → gv (g.psphXP F) (g.d.pos3 ix it ip)
      = fin (sphXG P.nl P.nm (axiC P.nl P.nm a a) (Real.arccos (x it)) (phiN P.nphi ip)) := by
    intro ip hip
    have hr := hS.inR hix hit hip
    have hsh := hF.shell hw.ok hr.1
    have hsm : Samples g.d.contig g.sphere.nlat g.sphere.nphi x (g.d.shellOf F ix) (fieldR g.sphere.lmax g.sphere.mmax (axiC P.nl P.nm a a)) := by
      rw [hw.nlat, hw.nphi, d1, d2]
      refine ⟨hsh.1, fun it' ip' b1 b2 => ?_⟩
      have hr' : g.d.InR ix it' ip' := ⟨hr.1, b1, b2⟩
      rw [hsh.2 it' ip' b1 b2, hy]
      beta_reduce
      rw [g.d.dT_pos3 hr', Gap.fieldR_axi]
    have hrep := samples_rep hw.sph hm (fun l _ => axi_real P.nl P.nm a a l) hsm
    have hv := sphXP_rep hw.sph hm (gap_ncp hw.sph (by rw [d1, d2]; exact hg)) hrep (it := it) (ip := ip) (by rw [d3]; exact hit) (by rw [d4]; exact hip)
    rw [← hw.ok.at3_eq _ hr]
    unfold Grid.psphXP Dims.ofShells
    rw [hw.ok.at3_mk3 hr]
    unfold Dims.at2
    rw [hw.ok.indx2 hr.2.1 hr.2.2, pos2_eq_spos]
    rw [d1, d2, hw.nlat, hw.nphi, h.nphi] at hv
    rw [h.nphi]
    exact hv
  have X0 := hX 0 (by omega)
  have X1 := hX 1 (by omega)
  rw [← hi0] at X0
  rw [← hi1] at X1
  have hne := axi_differs hg ha t0 t1 hphi
  -- coefficients
  obtain ⟨c1, _⟩ := he.coef_real hS h.phys hq hix hit (show 0 < P.nphi by omega) (hS.coords h.phys h.env hix hit (show 0 < P.nphi by omega))
  obtain ⟨hr, c1⟩ := c1 hR hL
  have c0 : gv e.coef i0 = (docCoef q.M q.a (physR q.L (radPt E.useCheb P.nx q.lo q.up ix)) (Real.arccos (x it))).map fin := by
    unfold Dims.at3 at c1
    rw [hw.ok.indx3 hr0, ← hi0] at c1
    exact c1
  have c2 := he.coef_rot hS (k := 1) l0
  rw [hrot, c0] at c2
  have hc := sphereX_coef_pos hq.M_pos hr q.a (Real.arccos (x it))
  obtain ⟨c, hcd⟩ : ∃ c, c = docCoef q.M q.a (physR q.L (radPt E.useCheb P.nx q.lo q.up ix)) (Real.arccos (x it)) := ⟨_, rfl⟩
  rw [← hcd] at c0 c2 hc
  have k0 := he.pk_real hS h.phys c (j := ⟨a * T, 0, pr y i0, 0, pr (fun _ => 0) i0, p2r y i0, ph y i0, pr (ph y) i0, lap y i0,
    sphXG P.nl P.nm (axiC P.nl P.nm a a) (Real.arccos (x it)) (phiN P.nphi 0)⟩) ka kb
  have k1 := he.pk_real hS h.phys c (j := ⟨a * T, 0, pr y i0, 0, pr (fun _ => 0) i0, p2r y i0, ph y i0, pr (ph y) i0, lap y i0,
    sphXG P.nl P.nm (axiC P.nl P.nm a a) (Real.arccos (x it)) (phiN P.nphi 1)⟩) ka kb
  have v1 := (o.pr.1 _ _ hF).2 i0 l0
  have v2 := (o.pr.1 _ _ hQ).2 i0 l0
  have v3 := (o.p2r.1 _ _ hF).2 i0 l0
  have v4 := (o.ph.1 _ _ hF).2 i0 l0
  have v5 := (o.pr.1 _ _ (o.ph.1 _ _ hF)).2 i0 l0
  have v7 := (o.lap.1 _ _ hF).2 i0 l0
  have vQ := hQ.2 i0 l0
  rw [e1] at v1
  rw [e2] at v2
  rw [e3] at v3
  rw [e4] at v4
  rw [e5] at v5
  rw [e7] at v7
  rw [eQ] at vQ
  have r0 : gv (e.rhs g F Q) i0 = fin (pkR q c ⟨a * T, 0, pr y i0, 0, pr (fun _ => 0) i0, p2r y i0, ph y i0, pr (ph y) i0, lap y i0,
      sphXG P.nl P.nm (axiC P.nl P.nm a a) (Real.arccos (x it)) (phiN P.nphi 0)⟩) := by
    unfold Eom.rhs
    rw [gv_tab l0, c0, hF0, eQ, vQ, e1, v1, e2, v2, e3, v3, e4, v4, e5, v5, X0, e7, v7]
    exact k0
  have r1 : gv (e.rhs g F Q) i1 = fin (pkR q c ⟨a * T, 0, pr y i0, 0, pr (fun _ => 0) i0, p2r y i0, ph y i0, pr (ph y) i0, lap y i0,
      sphXG P.nl P.nm (axiC P.nl P.nm a a) (Real.arccos (x it)) (phiN P.nphi 1)⟩) := by
    unfold Eom.rhs
    rw [gv_tab l1, ← c2, ← eF, hF0, vQ, v1, v2, v3, v4, v5, X1, v7]
    exact k1
  intro J
  have r0 := (hw.ok.at3_eq (e.rhs g F Q) hr0).trans ((congrArg _ hi0.symm).trans r0)
  have r1 := (hw.ok.at3_eq (e.rhs g F Q) hr1).trans ((congrArg _ hi1.symm).trans r1)
  exact ⟨_, _, _, _, _, Eom.set_k_eq hw (he.wf hS) J hF.1 hQ.1 (by rw [hfk, ht]) (by rw [hpk, ht]), r0, r1, pkR_ang_ne hc kb kc hne⟩

/-- The template's angular resolution (`nl=20`, `nm=18`, `nlat=nphi=40`), on a spinning black hole with kinetic function `1+x`, meets all
hypotheses. -/
example (contig ndebug useCheb : Bool) : ∃ (E : Env CR) (P : ParamRec CR) (q : Phys) (x : ℕ → ℝ) (A : ℕ → ℕ → ℕ → ℝ) (g : Grid CR) (e : Eom CR),
    P.nl = 20 ∧ P.nm = 18 ∧ P.nlat = 40 ∧ P.nphi = 40 ∧ Exact E P g q x A ∧ Eom.Of g P e ∧ q.Ok ∧ 1 ≤ P.nm ∧ P.nm + 2 ≤ P.nl ∧
    (P.nl - P.nm) ^ 2 < P.nl ∧ (∀ i j, i < P.nlat → j < P.nlat → x i = x j → i = j) ∧ P.nl + P.nm < P.nlat ∧ q.k0 + q.km1 ≠ 0 ∧ q.k1 ≠ q.km1 ∧
    ∃ ix, ix < P.nx ∧ 0 < radPt E.useCheb P.nx q.lo q.up ix ∧ 1 / 10 ^ 16 < q.L - radPt E.useCheb P.nx q.lo q.up ix := by
  obtain ⟨P, hP⟩ : ∃ P : ParamRec CR, P = { demoP with nl := 20, nm := 18, nlat := 40, nphi := 40, k1 := fin 1 } := ⟨_, rfl⟩
  obtain ⟨q, hqd⟩ : ∃ q : Phys, q = { demoQ with k1 := 1 } := ⟨_, rfl⟩
  obtain ⟨E, x, A, h1, h2, h3, h4, h5⟩ := exists_env_inj contig ndebug useCheb (nx := 33) (nl := 20) (nm := 18) (nlat := 40) (nphi := 40)
    (by omega) (by omega) (by omega)
  have z1 : P.nx = 33 := by rw [hP]; rfl
  have z2 : P.nl = 20 := by rw [hP]
  have z3 : P.nm = 18 := by rw [hP]
  have z4 : P.nlat = 40 := by rw [hP]
  have z5 : P.nphi = 40 := by rw [hP]
  have hz : Sizes E.useCheb 33 20 40 40 :=
    ⟨by rw [h3]; cases useCheb <;> decide, by omega, by omega, by decide, by decide, by omega⟩
  obtain ⟨g, hg, _⟩ := Grid.ctor_wf h4.sized hz P.cl P.Rmin P.Rmax
  have hS : Setup E P g := by
    refine ⟨⟨?_, ?_, ?_⟩, ?_⟩
    · rw [z1, z2, z3, z4, z5]; exact h4.sized
    · rw [z1, z2, z4, z5]; exact hz
    · rw [z1, z2, z3, z4, z5]; exact hg
    · rw [z2, z3]; unfold OrdersOk; decide
  obtain ⟨e, _, ho⟩ := Eom.Of.exists hS
  have hlo : compR 100 (9/10) = 900 / 1009 := by unfold compR; norm_num
  obtain ⟨ix, hix, hR⟩ : ∃ ix, ix < 33 ∧ radPt E.useCheb 33 q.lo q.up ix = 900 / 1009 := by
    rw [h3, hqd]
    cases useCheb
    · exact ⟨0, by omega, by simp only [radPt, demoQ, hlo]; norm_num⟩
    · refine ⟨32, by omega, ?_⟩
      simp only [radPt, demoQ, hlo, chebPt]
      rw [show Real.pi * ((32 : ℕ) : ℝ) / (((33 : ℕ) : ℝ) - 1) = Real.pi by push_cast; field_simp; norm_num, Real.cos_pi]
      norm_num
  refine ⟨E, P, q, x, A, g, e, z2, z3, z4, z5, ⟨hS, ?_, ?_, ?_, ?_⟩, ho, ?_, by omega, by omega, by rw [z2, z3]; norm_num, by rw [z4]; exact h5, by omega, ?_, ?_, ix, by omega, ?_, ?_⟩
  · rw [z1, z2, z3, z4, z5]; exact h4
  · rw [hP, hqd]; constructor <;> rfl
  · rw [hqd]; simp only [demoQ, hlo]; norm_num
  · rw [hqd]; simp only [demoQ]; norm_num
  · rw [hqd]; exact ⟨demo_ok.1, demo_ok.2, demo_ok.3, demo_ok.4⟩
  · rw [hqd]; simp [demoQ]
  · rw [hqd]; simp [demoQ]
  · rw [z1, hR]; norm_num
  · rw [z1, hR, hqd]; simp only [demoQ]; norm_num

end run
end SFK
