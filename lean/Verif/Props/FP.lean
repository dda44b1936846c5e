import Verif.Lemmas.FPMain
import Verif.Lemmas.FPMats
import Verif.Props.Symmetry
/-
C93: a run in floating-point arithmetic stays within O(eps) of the run in exact arithmetic.
-/
namespace SFK
open Scalar CR Filter Asymptotics Topology

/-- C93: Take an exact run (the grid main.cpp builds, exact libraries, finite parameters, no comparison with `1e-16` an exact tie) whose
first `N` steps stay finite.  There are a constant `C`, an accuracy `ε0 > 0` and a range `Ω0` such that in every floating-point
format at least this accurate and large, every run of the same program whose parameters, polar nodes and initial data are the exact
ones up to `κ eps` and whose libraries are accurate up to `κ eps` takes the `N` steps without failing, and each value of both fields is
then finite and within `C eps` of the exact one. -/
theorem C93_rounding_error_of_the_evolution {E0 : Env CR} {P0 : ParamRec CR} {g0 : Grid CR} {e0 : Eom CR} {q : Phys} {M : LibMats} (κ : ℝ)
    (hS : Setup E0 P0 g0) (he : Eom.Of g0 P0 e0) (hM : E0.Mats P0.nx P0.nl P0.nm P0.nlat P0.nphi M) (hq : q.Is P0)
    (ht : q.NoTies E0.useCheb P0.nx) (hlu : q.lo ≠ q.up) (hL : q.L ≠ 0) {f0 p0 : Field CR} (hf0 : f0.Sized (P0.nx * P0.nlat * P0.nphi))
    (hp0 : p0.Sized (P0.nx * P0.nlat * P0.nphi)) (N : ℕ) (hfin : StaysFinite g0 e0 f0 p0 N) :
    ∃ C ε0 Ω0 : ℝ, 0 < ε0 ∧ ∀ (φ : Format) (E : Env φ.T) (P : ParamRec φ.T) (g : Grid φ.T) (e : Eom φ.T) (f p : Field φ.T),
      φ.Run κ M E0 P0 E P g e → f.Sized (P0.nx * P0.nlat * P0.nphi) → p.Sized (P0.nx * P0.nlat * P0.nphi) →
      φ.CloseL κ f.n f0.n → φ.CloseL κ p.n p0.n → φ.eps ≤ ε0 → Ω0 ≤ φ.Omega →
      ∀ J J0, ∃ e' f' p' e0' f0' p0', evolve g J e f p N = .ok (e', f', p') ∧ evolve g0 J0 e0 f0 p0 N = .ok (e0', f0', p0') ∧
        φ.CloseL C f'.n f0'.n ∧ φ.CloseL C p'.n p0'.n := by
  have hev := hfin.evoP hS he hf0 hp0
  have tot := hS.total
  let R := FPRun κ M E0 P0 g0.d.total f0.n p0.n
  let φ : R → Format := fun i => i.φ
  obtain ⟨l, hl⟩ : ∃ l, l = comap (fun i => (φ i).eps) (𝓝 0) ⊓ comap (fun i => (φ i).Omega) atTop := ⟨_, rfl⟩
  have hF : Fine l φ := by rw [hl]; exact fine_filter φ
  have hfam : RunFam φ κ M q E0 P0 g0 e0 (fun i => i.E) (fun i => i.P) (fun i => i.g) (fun i => i.e) :=
    ⟨fun i => i.run, hS, he, hM, hq, ht, hlu, hL⟩
  have h0 := hev 0 (Nat.zero_le _)
  have n1 := evo_near hF (hfam.grFam hF) (hfam.eoFam hF) (f := fun i : R => i.f) (p := fun i : R => i.p) (F := f0.n) (P := p0.n)
    (CloseL.near (hf0.1.trans tot.symm) h0.1 fun i => i.hf) (CloseL.near (hp0.1.trans tot.symm) h0.2 fun i => i.hp) N hev
  obtain ⟨C1, c1, k1⟩ := n1.1.close
  obtain ⟨C2, c2, k2⟩ := n1.2.close
  have k := k1.and k2
  rw [hl] at k
  obtain ⟨ε, Ω, hε, k⟩ := fine_event k
  refine ⟨C1 + C2, ε, Ω, hε, fun ψ E P g e f p hr hf hp cf cp he1 ho1 J J0 => ?_⟩
  obtain ⟨a1, a2⟩ := k ⟨ψ, E, P, g, e, f.n, p.n, hr, cf, cp⟩ he1 ho1
  have hn : P.nx * P.nlat * P.nphi = P0.nx * P0.nlat * P0.nphi := by rw [hr.par.nx, hr.par.nlat, hr.par.nphi]
  rw [← hn] at hf hp
  obtain ⟨s, f', p', b1, _, _, _, b5, b6⟩ := evolve_eq hr.setup hr.eom J hf hp N
  obtain ⟨s0, f0', p0', d1, _, _, _, d5, d6⟩ := evolve_eq hS he J0 hf0 hp0 N
  refine ⟨_, f', p', _, f0', p0', b1, d1, ?_, ?_⟩
  · rw [b5, d5]
    exact ⟨a1.1, fun i hi => (a1.2 i hi).mono (by linarith)⟩
  · rw [b6, d6]
    exact ⟨a2.1, fun i hi => (a2.2 i hi).mono (by linarith)⟩

/-- C93: Libraries that compute what they document do multiply by matrices, so that the theorem applies to them: with as many azimuthal
modes as polar ones, the hypothesis on the exact libraries follows from their documentation. -/
theorem C93_documented_libraries_have_matrices {E : Env CR} {nx nl nlat nphi : ℕ} {x : ℕ → ℝ} {A : ℕ → ℕ → ℕ → ℝ}
    (h : E.Exact nx nl nl nlat nphi x A) : ∃ M, E.Mats nx nl nl nlat nphi M := h.mats

/-! ## Non-vacuity -/

section demo
variable {rnd : ℝ → ℝ} {eps Omega : ℝ} {h0 : 0 ≤ eps} {h : ∀ x, |rnd x - x| ≤ eps * (1 + |x|)}

theorem gv_inst {α : Type} {i1 i2 : Inhabited α} {v : List α} {k : ℕ} (hk : k < v.length) : @gv α i1 v k = @gv α i2 v k := by
  unfold gv
  rw [List.getElem?_eq_getElem hk, Option.getD_some, Option.getD_some]

theorem toReal_iff {z : CR} {r : ℝ} : CR.toReal? z = some r ↔ z = fin r := by
  cases z with
  | fin y => exact ⟨fun hh => by cases hh; rfl, fun hh => by cases hh; rfl⟩
  | bad => exact ⟨fun hh => (by cases hh), fun hh => (by cases hh)⟩

theorem vals_ofRnd {n : ℕ} {v : List CR} {u : ℕ → ℝ} : (Format.ofRnd rnd eps Omega h0 h).Vals n v u ↔ ExactVals n v u := by
  unfold Format.Vals ExactVals
  refine and_congr_right fun hl => forall_congr' fun i => forall_congr' fun hi => ?_
  have e : (@gv CR (@Scalar.instInhS CR (Format.ofRnd rnd eps Omega h0 h).inst) v i) = gv v i := gv_inst (lt_of_lt_of_eq hi hl.symm)
  rw [← e]
  exact toReal_iff

theorem approx_ofRnd {κ : ℝ} (hκ : 0 ≤ κ) {X Y : Type} {n m : ℕ} {inp : X → List CR} {out : Y → List CR} {F : X → Y} {A : ℕ → ℕ → ℝ}
    (hA : IsMat n m inp out F A) : (Format.ofRnd rnd eps Omega h0 h).ApproxMat κ n m inp out F A := by
  intro v u hv _
  refine ⟨_, vals_ofRnd.mpr (hA v u (vals_ofRnd.mp hv)), fun i _ => ?_⟩
  rw [sub_self, abs_zero]
  have : 0 ≤ ∑ j ∈ Finset.range n, |u j| := Finset.sum_nonneg fun _ _ => abs_nonneg _
  have := (Format.ofRnd rnd eps Omega h0 h).eps_nonneg
  positivity

theorem close_ofRnd {κ : ℝ} (hκ : 0 ≤ κ) {X : CR} {r : ℝ} (hX : X = fin r) : (Format.ofRnd rnd eps Omega h0 h).Close κ X X := by
  refine ⟨r, r, ?_, hX, ?_⟩
  · rw [hX]; rfl
  · rw [sub_self, abs_zero]
    exact mul_nonneg hκ h0

/-- Runs with rounded operations exist beside every exact run. -/
theorem run_ofRnd {κ : ℝ} (hκ : 0 ≤ κ) {M : LibMats} {E0 : Env CR} {P0 : ParamRec CR} {g0 : Grid CR} {q : Phys} (hS : Setup E0 P0 g0)
    (hM : E0.Mats P0.nx P0.nl P0.nm P0.nlat P0.nphi M) (hq : q.Is P0) :
    ∃ g e, (Format.ofRnd rnd eps Omega h0 h).Run κ M E0 P0 E0 P0 g e := by
  obtain ⟨g, hg, _⟩ := @Grid.ctor_wf CR (Format.ofRnd rnd eps Omega h0 h).inst E0 P0.nx P0.nl P0.nm P0.nlat P0.nphi hS.sized hS.sizes P0.cl P0.Rmin P0.Rmax
  have hS' : @Setup CR (Format.ofRnd rnd eps Omega h0 h).inst E0 P0 g := @Setup.mk CR (Format.ofRnd rnd eps Omega h0 h).inst E0 P0 g (@BuiltGrid.mk CR (Format.ofRnd rnd eps Omega h0 h).inst E0 P0 g hS.sized hS.sizes hg) hS.orders
  obtain ⟨e, _, he⟩ := @Eom.Of.exists CR (Format.ofRnd rnd eps Omega h0 h).inst E0 P0 g hS'
  refine ⟨g, e, hS', he, rfl, rfl, rfl, ?_, ?_, ?_⟩
  · exact ⟨rfl, rfl, rfl, rfl, rfl, close_ofRnd hκ hq.dt, close_ofRnd hκ hq.L, close_ofRnd hκ hq.lo, close_ofRnd hκ hq.up,
      close_ofRnd hκ hq.M, close_ofRnd hκ hq.a, close_ofRnd hκ hq.km1, close_ofRnd hκ hq.k0, close_ofRnd hκ hq.k1, close_ofRnd hκ hq.k2,
      close_ofRnd hκ hq.V2, close_ofRnd hκ hq.V3, close_ofRnd hκ hq.V4⟩
  · exact ⟨approx_ofRnd hκ hM.ana, approx_ofRnd hκ hM.syn, approx_ofRnd hκ hM.anaC, approx_ofRnd hκ hM.synC, fun hc => approx_ofRnd hκ (hM.dct hc)⟩
  · intro it hit
    obtain ⟨x, hx, _⟩ := hM.nodes it hit
    have e : (@gv CR (@Scalar.instInhS CR (Format.ofRnd rnd eps Omega h0 h).inst) (E0.sht P0.nl P0.nm P0.nlat P0.nphi).ct it) =
        gv (E0.sht P0.nl P0.nm P0.nlat P0.nphi).ct it := gv_inst (by rw [hS.sized.api.ct_len]; exact hit)
    obtain ⟨y, r, k1, k2, k3⟩ := close_ofRnd (rnd := rnd) (eps := eps) (Omega := Omega) (h0 := h0) (h := h) hκ hx
    exact ⟨y, r, (congrArg CR.toReal? e).trans k1, k2, k3⟩

end demo

/-- no comparison of the example with finite differences is a tie -/
theorem free_noTies : freeQ.NoTies false freeP.nx := by
  have hlo : compR 100 (9/10) = 900 / 1009 := by unfold compR; norm_num
  refine ⟨?_, ?_, ?_, fun ix hx => ?_⟩
  · simp only [freeQ, demoQ]; norm_num
  · simp only [freeQ, demoQ]
    rw [abs_of_pos (show (0:ℝ) < 3/10 by norm_num), abs_of_pos (by norm_num)]
    norm_num
  · simp only [freeQ, demoQ]
    rw [abs_of_pos (show (0:ℝ) < 3/10 by norm_num)]
    norm_num
  · have hx' : ix < 33 := hx
    simp only [freeQ, demoQ, freeP, demoP, hlo]
    unfold radPt
    interval_cases ix <;> norm_num [abs_of_neg, abs_of_pos, abs_of_nonpos]

theorem free_fd : ∃ (E : Env CR) (x : ℕ → ℝ) (A : ℕ → ℕ → ℕ → ℝ) (g : Grid CR) (e : Eom CR), E.useCheb = false ∧
    Exact E freeP g freeQ x A ∧ Eom.Of g freeP e ∧ freeQ.Ok ∧ 0 < freeQ.lo ∧ freeQ.lo < freeQ.up ∧ freeQ.up ≤ freeQ.L ∧ freeQ.k0 ≠ 0 := by
  obtain ⟨E, x, A, g, e, h1, h2, h3, h4, h5, h6, h7⟩ := demo_setup true false false
  have hS : Setup E freeP g := ⟨⟨h5.sized, h5.sizes, h5.grid⟩, h5.orders⟩
  obtain ⟨e', _, he'⟩ := Eom.Of.exists hS
  have hlo : compR 100 (9/10) = 900 / 1009 := by unfold compR; norm_num
  refine ⟨E, x, A, g, e', h3, ⟨hS, h4, by constructor <;> rfl, ?_, ?_⟩, he', ⟨demo_ok.1, demo_ok.2, demo_ok.3, demo_ok.4⟩, ?_, ?_, ?_, ?_⟩ <;>
    simp only [freeQ, demoQ, hlo] <;> norm_num

/-- non-vacuity of C93: three steps on a spinning black hole with finite differences, from a state that depends on all three coordinates; in
every binary format with enough digits and range (`binary64` has 53 digits) the rounded run exists, and by C93 stays within `C 2^-p` of
the exact one. -/
example : ∃ (E : Env CR) (x : ℕ → ℝ) (A : ℕ → ℕ → ℕ → ℝ) (g0 : Grid CR) (e0 : Eom CR) (f p : Field CR) (C : ℝ) (p0 : ℕ) (Ω0 : ℝ),
    Exact E freeP g0 freeQ x A ∧ Eom.Of g0 freeP e0 ∧ gv f.n 0 ≠ gv f.n 1 ∧ gv f.n 0 ≠ fin 0 ∧ StaysFinite g0 e0 f p 3 ∧
    ∀ pr ex (hpe : pr ≤ ex) Ω, p0 ≤ pr → Ω0 ≤ Ω → ∃ (g : Grid (binary pr ex hpe Ω).T) (e : Eom (binary pr ex hpe Ω).T), Eom.Of g freeP e ∧
      ∀ J J0, ∃ e' f' p' e0' f0' p0', evolve g J e f p 3 = .ok (e', f', p') ∧ evolve g0 J0 e0 f p 3 = .ok (e0', f0', p0') ∧
        (binary pr ex hpe Ω).CloseL C f'.n f0'.n ∧ (binary pr ex hpe Ω).CloseL C p'.n p0'.n := by
  obtain ⟨E, x, A, g, e, hc, h, he, ho, h0, h1, h2, hk0⟩ := free_fd
  obtain ⟨ε, hε, hs⟩ := C74_small_free_fields_stay_finite h he ho h0 h1 h2 hk0 rfl rfl rfl rfl rfl (fun i => i + 1) (fun i => i + 1) 3
  obtain ⟨n, hn⟩ : ∃ n, n = freeP.nx * freeP.nlat * freeP.nphi := ⟨_, rfl⟩
  have hn2 : 1 < n := by rw [hn]; decide
  obtain ⟨a, ha, hae⟩ : ∃ a, 0 < a ∧ a < ε := ⟨ε / 2, by linarith, by linarith⟩
  obtain ⟨v, hv⟩ : ∃ v, v = tab n fun i => fin (a * (i + 1)) := ⟨_, rfl⟩
  obtain ⟨F, hF⟩ : ∃ F : Field CR, F = ⟨"f", v, v, v, v, n⟩ := ⟨_, rfl⟩
  have hFs : F.Sized n := by simp [hF, hv, Field.Sized]
  have hFv : ∀ i, i < n → gv F.n i = fin (a * (i + 1)) := fun i hi => by rw [hF, hv]; exact gv_tab hi
  rw [hn] at hFs
  have hfin : StaysFinite g e F F 3 := hs a (by rw [abs_of_pos ha]; exact hae) F F hFs hFs (by rw [← hn]; exact hFv) (by rw [← hn]; exact hFv)
  obtain ⟨M, hM⟩ := C93_documented_libraries_have_matrices (nl := freeP.nl) h.env
  obtain ⟨C, ε0, Ω0, hε0, key⟩ := C93_rounding_error_of_the_evolution 0 h.setup he hM h.phys (by rw [hc]; exact free_noTies) h.lu h.L0 hFs hFs 3 hfin
  obtain ⟨p0, hp0⟩ := exists_pow_lt_of_lt_one hε0 (show (2 : ℝ)⁻¹ < 1 by norm_num)
  refine ⟨E, x, A, g, e, F, F, C, p0, Ω0, h, he, ?_, ?_, hfin, fun pr ex hpe Ω hpr hΩ => ?_⟩
  · rw [hFv 0 (by omega), hFv 1 hn2, ne_eq, fin_inj]
    push_cast
    intro hh
    linarith
  · rw [hFv 0 (by omega), ne_eq, fin_inj]
    push_cast
    intro hh
    linarith
  · obtain ⟨g', e', hr⟩ := run_ofRnd (rnd := rndBin pr ex) (eps := 2⁻¹ ^ pr) (Omega := Ω) (h0 := by positivity) (h := rndBin_err hpe) (le_refl 0) h.setup hM h.phys
    have hcl : (binary pr ex hpe Ω).CloseL 0 F.n F.n := by
      refine ⟨rfl, fun i hi => ?_⟩
      have hi' : i < n := by rw [hFs.1, ← hn] at hi; exact hi
      have e1 : (@gv CR (@Scalar.instInhS CR (binary pr ex hpe Ω).inst) F.n i) = gv F.n i := gv_inst hi
      obtain ⟨y, r, k1, k2, k3⟩ := close_ofRnd (rnd := rndBin pr ex) (eps := 2⁻¹ ^ pr) (Omega := Ω) (h0 := by positivity) (h := rndBin_err hpe) (le_refl 0) (hFv i hi')
      exact ⟨y, r, (congrArg CR.toReal? e1).trans k1, k2, k3⟩
    refine ⟨g', e', hr.eom, ?_⟩
    refine key (binary pr ex hpe Ω) E freeP g' e' F F hr hFs hFs hcl hcl ?_ hΩ
    show (2 : ℝ)⁻¹ ^ pr ≤ ε0
    exact (pow_le_pow_of_le_one (by norm_num) (by norm_num) hpr).trans hp0.le

end SFK
