import Verif.Spec.Depend
import Verif.Props.FP
/-
C123: the run depends continuously on the initial data and on the parameters.
-/
namespace SFK
open Scalar CR

/-- exact arithmetic, as a format whose accuracy is only used up to `eps` -/
noncomputable abbrev Format.exactly (eps Omega : ℝ) (h0 : 0 ≤ eps) : Format where
  T := CR
  inst := inferInstance
  val := CR.toReal?
  eps := eps
  Omega := Omega
  eps_nonneg := h0
  faithful := by
    have key : ∀ x : ℝ, Rounds CR.toReal? eps Omega (fin x) x := fun x _ => ⟨x, rfl, by
      rw [sub_self, abs_zero]; positivity⟩
    have fn : ∀ {a : CR} {x : ℝ}, CR.toReal? a = some x → a = fin x := fun h => toReal_iff.mp h
    constructor
    · intro a b x y ha hb; rw [fn ha, fn hb]; exact key (x + y)
    · intro a b x y ha hb; rw [fn ha, fn hb]; exact key (x - y)
    · intro a b x y ha hb; rw [fn ha, fn hb]; exact key (x * y)
    · intro a b x y ha hb hy
      rw [fn ha, fn hb, fin_div _ _ hy]; exact key _
    · intro a x ha; rw [fn ha]; rfl
    · intro a x ha; rw [fn ha]; rfl
    · intro q; exact key (q : ℝ)
    · intro a x k ha; rw [fn ha]; exact key (x ^ k)
    · intro a x ha hx
      rw [fn ha, fin_rt _ hx]; exact key _
    · intro a x ha; rw [fn ha]; exact key (Real.exp x)
    · intro a x ha hx
      rw [fn ha, fin_log _ hx]; exact key _
    · intro a x ha; rw [fn ha]; exact key (Real.cos x)
    · intro a x ha; rw [fn ha]; exact key (Real.sin x)
    · intro a x ha h1 h2
      rw [fn ha, fin_acos _ h1 h2]; exact key _
    · intro a b x y ha hb; rw [fn ha, fn hb]; exact fin_lt x y
    · exact key Real.pi

section
variable {eps Omega : ℝ} {h0 : 0 ≤ eps}

theorem vals_exactly {n : ℕ} {v : List CR} {u : ℕ → ℝ} : (Format.exactly eps Omega h0).Vals n v u ↔ ExactVals n v u := by
  unfold Format.Vals ExactVals
  refine and_congr_right fun hl => forall_congr' fun i => forall_congr' fun hi => ?_
  exact toReal_iff

theorem approx_exactly {κ : ℝ} (hκ : 0 ≤ κ) {X Y : Type} {n m : ℕ} {inp : X → List CR} {out : Y → List CR} {F : X → Y} {A : ℕ → ℕ → ℝ}
    (hA : IsMat n m inp out F A) : (Format.exactly eps Omega h0).ApproxMat κ n m inp out F A := by
  intro v u hv _
  refine ⟨_, vals_exactly.mpr (hA v u (vals_exactly.mp hv)), fun i _ => ?_⟩
  rw [sub_self, abs_zero]
  have : 0 ≤ ∑ j ∈ Finset.range n, |u j| := Finset.sum_nonneg fun _ _ => abs_nonneg _
  have := (Format.exactly eps Omega h0).eps_nonneg
  positivity

theorem close_exactly {κ : ℝ} {a b : CR} : (Format.exactly eps Omega h0).Close κ a b ↔ Within (κ * eps) a b := by
  constructor
  · rintro ⟨x, y, h1, h2, h3⟩
    exact ⟨x, y, toReal_iff.mp h1, h2, h3⟩
  · rintro ⟨x, y, h1, h2, h3⟩
    exact ⟨x, y, toReal_iff.mpr h1, h2, h3⟩

theorem closeL_exactly {κ : ℝ} {v w : List CR} : (Format.exactly eps Omega h0).CloseL κ v w ↔ WithinL (κ * eps) v w :=
  and_congr_right fun _ => forall_congr' fun _ => forall_congr' fun _ => close_exactly

theorem run_exactly {M : LibMats} {E : Env CR} {P P0 : ParamRec CR} {g : Grid CR} {e : Eom CR} (hS : Setup E P g) (he : Eom.Of g P e)
    (hM : E.Mats P0.nx P0.nl P0.nm P0.nlat P0.nphi M) (hP : ParWithin eps P P0) :
    (Format.exactly eps Omega h0).Run 1 M E P0 E P g e := by
  have cl : ∀ {a b : CR}, Within eps a b → (Format.exactly eps Omega h0).Close 1 a b := fun h => close_exactly.mpr (by rwa [one_mul])
  refine ⟨hS, he, rfl, rfl, rfl, ?_, ?_, ?_⟩
  · exact ⟨hP.nx, hP.nl, hP.nm, hP.nlat, hP.nphi, cl hP.dt, cl hP.cl, cl hP.Rmin, cl hP.Rmax, cl hP.mass, cl hP.spin, cl hP.km1, cl hP.k0,
      cl hP.k1, cl hP.k2, cl hP.V2, cl hP.V3, cl hP.V4⟩
  · exact ⟨approx_exactly zero_le_one hM.ana, approx_exactly zero_le_one hM.syn, approx_exactly zero_le_one hM.anaC,
      approx_exactly zero_le_one hM.synC, fun hc => approx_exactly zero_le_one (hM.dct hc)⟩
  · intro it hit
    obtain ⟨x, hx, _⟩ := hM.nodes it hit
    exact cl ⟨x, x, hx, hx, by rw [sub_self, abs_zero]; exact h0⟩

end

/-- **C123**: take a run in exact arithmetic (no comparison with `1e-16` an exact tie) whose first `N` steps stay finite.  There are constants `C` and
`ε0 > 0` such that, for every `ε ≤ ε0`, every run with the same libraries and sizes whose parameters and initial data differ from those of the first by
at most `ε` stays finite for `N` steps, and both its fields differ from those of the first by at most `C ε`, at every grid point and at every step. -/
theorem C123_continuous_dependence {E : Env CR} {P0 : ParamRec CR} {g0 : Grid CR} {e0 : Eom CR} {q : Phys} {M : LibMats}
    (hS : Setup E P0 g0) (he : Eom.Of g0 P0 e0) (hM : E.Mats P0.nx P0.nl P0.nm P0.nlat P0.nphi M) (hq : q.Is P0)
    (ht : q.NoTies E.useCheb P0.nx) (hlu : q.lo ≠ q.up) (hL : q.L ≠ 0) {f0 p0 : Field CR} (hf0 : f0.Sized (P0.nx * P0.nlat * P0.nphi))
    (hp0 : p0.Sized (P0.nx * P0.nlat * P0.nphi)) (N : ℕ) (hfin : StaysFinite g0 e0 f0 p0 N) :
    ∃ C ε0 : ℝ, 0 < ε0 ∧ ∀ ε, 0 ≤ ε → ε ≤ ε0 → ∀ (P : ParamRec CR) (g : Grid CR) (e : Eom CR) (f p : Field CR), Setup E P g → Eom.Of g P e →
      ParWithin ε P P0 → f.Sized (P0.nx * P0.nlat * P0.nphi) → p.Sized (P0.nx * P0.nlat * P0.nphi) → WithinL ε f.n f0.n → WithinL ε p.n p0.n →
      StaysFinite g e f p N ∧ ∀ j ≤ N, ∀ J J0, ∃ a F Q a0 F0 Q0, evolve g J e f p j = .ok (a, F, Q) ∧ evolve g0 J0 e0 f0 p0 j = .ok (a0, F0, Q0) ∧
        WithinL (C * ε) F.n F0.n ∧ WithinL (C * ε) Q.n Q0.n := by
  have step : ∀ j ≤ N, ∃ C ε0 : ℝ, 0 < ε0 ∧ ∀ ε, 0 ≤ ε → ε ≤ ε0 → ∀ (P : ParamRec CR) (g : Grid CR) (e : Eom CR) (f p : Field CR), Setup E P g →
      Eom.Of g P e → ParWithin ε P P0 → f.Sized (P0.nx * P0.nlat * P0.nphi) → p.Sized (P0.nx * P0.nlat * P0.nphi) → WithinL ε f.n f0.n →
      WithinL ε p.n p0.n → ∀ J J0, ∃ a F Q a0 F0 Q0, evolve g J e f p j = .ok (a, F, Q) ∧ evolve g0 J0 e0 f0 p0 j = .ok (a0, F0, Q0) ∧
        WithinL (C * ε) F.n F0.n ∧ WithinL (C * ε) Q.n Q0.n := by
    intro j hj
    obtain ⟨C, ε0, Ω0, h1, key⟩ := C93_rounding_error_of_the_evolution 1 hS he hM hq ht hlu hL hf0 hp0 j fun i hi => hfin i (hi.trans hj)
    refine ⟨C, ε0, h1, fun ε a1 a2 P g e f p b1 b2 b3 b4 b5 b6 b7 J J0 => ?_⟩
    obtain ⟨a, F, Q, a0, F0, Q0, c1, c2, c3, c4⟩ := key (Format.exactly ε Ω0 a1) E P g e f p (run_exactly b1 b2 hM b3) b4 b5
      (closeL_exactly.mpr (by rwa [one_mul])) (closeL_exactly.mpr (by rwa [one_mul])) a2 (le_refl _) J J0
    exact ⟨a, F, Q, a0, F0, Q0, c1, c2, closeL_exactly.mp c3, closeL_exactly.mp c4⟩
  have all : ∀ n ≤ N, ∃ C ε0 : ℝ, 0 < ε0 ∧ ∀ ε, 0 ≤ ε → ε ≤ ε0 → ∀ (P : ParamRec CR) (g : Grid CR) (e : Eom CR) (f p : Field CR), Setup E P g →
      Eom.Of g P e → ParWithin ε P P0 → f.Sized (P0.nx * P0.nlat * P0.nphi) → p.Sized (P0.nx * P0.nlat * P0.nphi) → WithinL ε f.n f0.n →
      WithinL ε p.n p0.n → ∀ j ≤ n, ∀ J J0, ∃ a F Q a0 F0 Q0, evolve g J e f p j = .ok (a, F, Q) ∧ evolve g0 J0 e0 f0 p0 j = .ok (a0, F0, Q0) ∧
        WithinL (C * ε) F.n F0.n ∧ WithinL (C * ε) Q.n Q0.n := by
    have wm : ∀ {a b : ℝ} {v w : List CR}, a ≤ b → WithinL a v w → WithinL b v w := fun hab h => ⟨h.1, fun i hi => by
      obtain ⟨x, y, k1, k2, k3⟩ := h.2 i hi
      exact ⟨x, y, k1, k2, k3.trans hab⟩⟩
    intro n
    induction n with
    | zero =>
      intro hn
      obtain ⟨C, ε0, h1, h2⟩ := step 0 hn
      refine ⟨C, ε0, h1, fun ε a1 a2 P g e f p b1 b2 b3 b4 b5 b6 b7 j hj => ?_⟩
      rw [Nat.le_zero.mp hj]
      exact h2 ε a1 a2 P g e f p b1 b2 b3 b4 b5 b6 b7
    | succ n ih =>
      intro hn
      obtain ⟨C, ε0, h1, h2⟩ := step (n + 1) hn
      obtain ⟨C', ε0', h1', h2'⟩ := ih (by omega)
      refine ⟨max C C', min ε0 ε0', lt_min h1 h1', fun ε a1 a2 P g e f p b1 b2 b3 b4 b5 b6 b7 j hj J J0 => ?_⟩
      rcases Nat.lt_or_ge n j with hl | hl
      · obtain rfl : j = n + 1 := by omega
        obtain ⟨a, F, Q, a0, F0, Q0, c1, c2, c3, c4⟩ := h2 ε a1 (a2.trans (min_le_left _ _)) P g e f p b1 b2 b3 b4 b5 b6 b7 J J0
        have := mul_le_mul_of_nonneg_right (le_max_left C C') a1
        exact ⟨a, F, Q, a0, F0, Q0, c1, c2, wm this c3, wm this c4⟩
      · obtain ⟨a, F, Q, a0, F0, Q0, c1, c2, c3, c4⟩ := h2' ε a1 (a2.trans (min_le_right _ _)) P g e f p b1 b2 b3 b4 b5 b6 b7 j hl J J0
        have := mul_le_mul_of_nonneg_right (le_max_right C C') a1
        exact ⟨a, F, Q, a0, F0, Q0, c1, c2, wm this c3, wm this c4⟩
  obtain ⟨C, ε0, h1, h2⟩ := all N (le_refl _)
  refine ⟨C, ε0, h1, fun ε a1 a2 P g e f p b1 b2 b3 b4 b5 b6 b7 => ⟨fun j hj J a F Q hr => ?_, h2 ε a1 a2 P g e f p b1 b2 b3 b4 b5 b6 b7⟩⟩
  obtain ⟨J0⟩ : Nonempty (Junk (Cx CR)) := ⟨fun _ _ => default⟩
  obtain ⟨a', F', Q', a0, F0, Q0, c1, c2, c3, c4⟩ := h2 ε a1 a2 P g e f p b1 b2 b3 b4 b5 b6 b7 j hj J fun _ => J0
  rw [c1] at hr
  cases hr
  have fn : ∀ {v w : List CR}, WithinL (C * ε) v w → AllFin v := fun {v w} h => by
    rw [allFin_iff rfl]
    intro i hi
    obtain ⟨x, y, k1, _, _⟩ := h.2 i (by rw [← h.1]; exact hi)
    exact ⟨x, k1⟩
  exact ⟨fn c3, fn c4⟩

/-- **C123**: weak fields, whatever the Lagrangian (with a kinetic function that does not vanish at zero field) and the spin of the hole: for every number
of steps `N` there are `C` and `ε0 > 0` such that from every state whose two fields are at most `ε ≤ ε0` in size at every grid point the run stays finite
for `N` steps, and both fields are at most `C ε` in size at every grid point and at every one of these steps.  As many azimuthal modes as polar ones. -/
theorem C123_weak_fields_stay_finite {E : Env CR} {P : ParamRec CR} {g : Grid CR} {q : Phys} {x : ℕ → ℝ} {A : ℕ → ℕ → ℕ → ℝ} {e : Eom CR}
    (h : Exact E P g q x A) (he : Eom.Of g P e) (ho : q.Ok) (h0 : 0 < q.lo) (h1 : q.lo < q.up) (h2 : q.up ≤ q.L) (hk : q.k0 + q.km1 ≠ 0)
    (hnm : P.nm = P.nl) (ht : q.NoTies E.useCheb P.nx) (N : ℕ) :
    ∃ C ε0 : ℝ, 0 < ε0 ∧ ∀ ε, 0 ≤ ε → ε ≤ ε0 → ∀ f p : Field CR, f.Sized (P.nx * P.nlat * P.nphi) → p.Sized (P.nx * P.nlat * P.nphi) →
      (∀ i, i < P.nx * P.nlat * P.nphi → ∃ a b, gv f.n i = fin a ∧ gv p.n i = fin b ∧ |a| ≤ ε ∧ |b| ≤ ε) →
      StaysFinite g e f p N ∧ ∀ j ≤ N, ∀ J, ∃ a' F Q, evolve g J e f p j = .ok (a', F, Q) ∧
        ∀ i, i < P.nx * P.nlat * P.nphi → ∃ a b, gv F.n i = fin a ∧ gv Q.n i = fin b ∧ |a| ≤ C * ε ∧ |b| ≤ C * ε := by
  obtain ⟨n, hn⟩ : ∃ n, n = P.nx * P.nlat * P.nphi := ⟨_, rfl⟩
  rw [← hn]
  obtain ⟨zf, hz⟩ : ∃ zf : Field CR, zf = ⟨"f", tab n fun _ => fin 0, tab n fun _ => fin 0, tab n fun _ => fin 0, tab n fun _ => fin 0, n⟩ := ⟨_, rfl⟩
  have zs : zf.Sized (P.nx * P.nlat * P.nphi) := by rw [← hn]; simp [hz, Field.Sized]
  have z0 : ∀ i, i < n → gv zf.n i = fin 0 := fun i hi => by rw [hz]; exact gv_tab hi
  have vac : ∀ j (J : ℕ → Junk (Cx CR)), ∃ a F Q, evolve g J e zf zf j = .ok (a, F, Q) ∧ F.Sized n ∧ Q.Sized n ∧
      (∀ i, i < n → gv F.n i = fin 0) ∧ (∀ i, i < n → gv Q.n i = fin 0) := fun j J => by
    obtain ⟨a, F, Q, k⟩ := C48_vacuum_stays h he ho h0 h1 h2 hk J zs zs (by rw [← hn]; exact z0) (by rw [← hn]; exact z0) j
    rw [← hn] at k
    exact ⟨a, F, Q, k⟩
  have fz : StaysFinite g e zf zf N := fun j _ J a' F' Q' hr => by
    obtain ⟨a, F, Q, k1, k2, k3, k4, k5⟩ := vac j J
    rw [k1] at hr
    cases hr
    exact ⟨(allFin_iff k2.1).mpr fun i hi => ⟨0, k4 i hi⟩, (allFin_iff k3.1).mpr fun i hi => ⟨0, k5 i hi⟩⟩
  have hX := h.env
  rw [hnm] at hX
  obtain ⟨M, hM⟩ := C93_documented_libraries_have_matrices hX
  obtain ⟨C, ε0, c1, key⟩ := C123_continuous_dependence (M := M) h.setup he (by rw [hnm]; exact hM) h.phys ht h.lu h.L0 zs zs N fz
  have rf : ∀ {ε r : ℝ} {c : CR}, 0 ≤ ε → c = fin r → Within ε c c := fun hε hc => ⟨_, _, hc, hc, by rw [sub_self, abs_zero]; exact hε⟩
  refine ⟨C, ε0, c1, fun ε a1 a2 f p b1 b2 b3 => ?_⟩
  have hp := h.phys
  have pw : ParWithin ε P P := ⟨rfl, rfl, rfl, rfl, rfl, rf a1 hp.dt, rf a1 hp.L, rf a1 hp.lo, rf a1 hp.up, rf a1 hp.M, rf a1 hp.a, rf a1 hp.km1,
    rf a1 hp.k0, rf a1 hp.k1, rf a1 hp.k2, rf a1 hp.V2, rf a1 hp.V3, rf a1 hp.V4⟩
  have zl : zf.n.length = n := by rw [hn]; exact zs.1
  rw [hn] at b1 b2
  obtain ⟨d1, d2⟩ := key ε a1 a2 P g e f p h.setup he pw b1 b2
    ⟨by rw [zl, hn]; exact b1.1, fun i hi => by
      obtain ⟨a, b, k1, _, k3, _⟩ := b3 i (by rw [← zl]; exact hi)
      exact ⟨a, 0, k1, z0 i (by rw [← zl]; exact hi), by rwa [sub_zero]⟩⟩
    ⟨by rw [zl, hn]; exact b2.1, fun i hi => by
      obtain ⟨a, b, _, k2, _, k4⟩ := b3 i (by rw [← zl]; exact hi)
      exact ⟨b, 0, k2, z0 i (by rw [← zl]; exact hi), by rwa [sub_zero]⟩⟩
  refine ⟨d1, fun j hj J => ?_⟩
  obtain ⟨a, F, Q, a0, F0, Q0, k1, k2, k3, k4⟩ := d2 j hj J J
  obtain ⟨a0', F0', Q0', m1, m2, m3, m4, m5⟩ := vac j J
  rw [m1] at k2
  cases k2
  refine ⟨a, F, Q, k1, fun i hi => ?_⟩
  obtain ⟨u, u0, n1, n2, n3⟩ := k3.2 i (by rw [m2.1]; exact hi)
  obtain ⟨w, w0, n4, n5, n6⟩ := k4.2 i (by rw [m3.1]; exact hi)
  rw [m4 i hi, fin_inj] at n2
  rw [m5 i hi, fin_inj] at n5
  rw [← n2, sub_zero] at n3
  rw [← n5, sub_zero] at n6
  exact ⟨u, w, n1, n4, n3, n6⟩

/-- Non-vacuity of C123, and of the theorems on self-interacting fields that assume a finite run (C51, C104, C122): a field with a quartic potential
(`V4=100`) around a spinning hole, with finite differences, from a state that depends on all three coordinates, stays finite for 3 steps. -/
example : ∃ (E : Env CR) (x : ℕ → ℝ) (A : ℕ → ℕ → ℕ → ℝ) (g : Grid CR) (e : Eom CR) (M : LibMats) (f p : Field CR), demoQ.V4 = 100 ∧ demoQ.a ≠ 0 ∧
    Exact E demoP g demoQ x A ∧ Eom.Of g demoP e ∧ E.Mats demoP.nx demoP.nl demoP.nm demoP.nlat demoP.nphi M ∧ demoQ.NoTies E.useCheb demoP.nx ∧
    f.Sized (demoP.nx * demoP.nlat * demoP.nphi) ∧ p.Sized (demoP.nx * demoP.nlat * demoP.nphi) ∧ gv f.n 0 ≠ gv f.n 1 ∧ gv f.n 0 ≠ fin 0 ∧
    StaysFinite g e f p 3 := by
  obtain ⟨E, x, A, g, e, a1, a2, a3, a4, a5, a6, a7⟩ := demo_setup true false false
  have hlo : compR 100 (9/10) = 900 / 1009 := by unfold compR; norm_num
  have h : Exact E demoP g demoQ x A := ⟨a5, a4, by constructor <;> rfl, by simp only [demoQ, hlo]; norm_num, by simp only [demoQ]; norm_num⟩
  have ht : demoQ.NoTies false demoP.nx := ⟨free_noTies.mass, free_noTies.extreme, free_noTies.spin, free_noTies.scri⟩
  rw [← a3] at ht
  obtain ⟨C, ε0, c1, key⟩ := C123_weak_fields_stay_finite h a7 demo_ok (by simp only [demoQ, hlo]; norm_num) (by simp only [demoQ, hlo]; norm_num)
    (by simp only [demoQ]; norm_num) (by simp only [demoQ]; norm_num) rfl ht 3
  obtain ⟨M, hM⟩ := C93_documented_libraries_have_matrices (nl := demoP.nl) h.env
  obtain ⟨n, hn⟩ : ∃ n, n = demoP.nx * demoP.nlat * demoP.nphi := ⟨_, rfl⟩
  have hn2 : 1 < n := by rw [hn]; decide
  have n0 : (0 : ℝ) < n := by exact_mod_cast (show 0 < n by omega)
  obtain ⟨v, hv⟩ : ∃ v, v = tab n fun i => fin (ε0 / n * (i + 1)) := ⟨_, rfl⟩
  obtain ⟨F, hF⟩ : ∃ F : Field CR, F = ⟨"f", v, v, v, v, n⟩ := ⟨_, rfl⟩
  have hFs : F.Sized n := by simp [hF, hv, Field.Sized]
  have hFv : ∀ i, i < n → gv F.n i = fin (ε0 / n * (i + 1)) := fun i hi => by rw [hF, hv]; exact gv_tab hi
  have c2 : 0 < ε0 / n := div_pos c1 n0
  rw [← hn] at key ⊢
  refine ⟨E, x, A, g, e, M, F, F, rfl, by simp only [demoQ]; norm_num, h, a7, hM, ht, hFs, hFs, ?_, ?_, (key ε0 c1.le le_rfl F F hFs hFs fun i hi => ?_).1⟩
  · rw [hFv 0 (by omega), hFv 1 hn2, ne_eq, fin_inj]
    push_cast
    intro hh
    linarith
  · rw [hFv 0 (by omega), ne_eq, fin_inj]
    push_cast
    intro hh
    linarith
  · have b : |ε0 / n * ((i : ℝ) + 1)| ≤ ε0 := by
      rw [abs_of_pos (by positivity), div_mul_eq_mul_div, div_le_iff₀ n0]
      have : (i : ℝ) + 1 ≤ n := by exact_mod_cast hi
      exact mul_le_mul_of_nonneg_left this c1.le
    exact ⟨_, _, hFv i hi, hFv i hi, b, b⟩

end SFK
