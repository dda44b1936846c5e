import Verif.Spec.Setup
import Verif.Lemmas.Eom
import Verif.Lemmas.Kerr
import Verif.Props.GridOps
/-
Consequences of the set-up of a run.
-/
namespace SFK
open Scalar CR Kerr

section generic
variable {α : Type} [Scalar α] {E : Env α} {P : ParamRec α} {g : Grid α} {e : Eom α}

theorem BuiltGrid.wf (h : BuiltGrid E P g) : g.Wf := (Grid.wf_of_ctor h.sized h.sizes h.grid).1
theorem BuiltGrid.dims (h : BuiltGrid E P g) : g.d = ⟨P.nx, P.nl, P.nm, P.nlat, P.nphi, E.contig, E.ndebug⟩ :=
  (Grid.wf_of_ctor h.sized h.sizes h.grid).2.1
theorem Setup.full (h : Setup E P g) : g.Full := h.wf.full (by rw [h.dims]; exact h.orders)
theorem BuiltGrid.cl (h : BuiltGrid E P g) : g.cl = P.cl := (Grid.wf_of_ctor h.sized h.sizes h.grid).2.2.1
theorem BuiltGrid.radial (h : BuiltGrid E P g) : g.radial = Grid.radialOf E P.Rmin P.Rmax P.nx :=
  (Grid.wf_of_ctor h.sized h.sizes h.grid).2.2.2.1
theorem BuiltGrid.sht (h : BuiltGrid E P g) : g.sphere.sht = E.sht P.nl P.nm P.nlat P.nphi :=
  (Grid.wf_of_ctor h.sized h.sizes h.grid).2.2.2.2
theorem BuiltGrid.total (h : BuiltGrid E P g) : g.d.total = P.nx * P.nlat * P.nphi := by rw [h.dims]; rfl

theorem BuiltGrid.inR (h : BuiltGrid E P g) {ix it ip : Nat} (hx : ix < P.nx) (ht : it < P.nlat) (hp : ip < P.nphi) :
    g.d.InR ix it ip := by rw [h.dims]; exact ⟨hx, ht, hp⟩

/-- the constructed object with arbitrary work arrays, in closed form -/
theorem Eom.Of.eqB (h : BuiltGrid E P g) (he : Eom.Of g P e) : ∃ s : Scratch α, Eom.ScrOk s g.d.total ∧ e =
    { n := g.d.total, dt := P.dt, km1 := P.km1, k0 := P.k0, k1 := P.k1, k2 := P.k2, v2 := P.V2, v3 := P.V3, v4 := P.V4,
      coef := g.d.mk3 fun ix it _ => Eom.coefAt g P ix it, scr := s, ndebug := g.d.ndebug } := by
  obtain ⟨e0, s, h1, h2, h3⟩ := he
  rw [Eom.mk'_eq h.wf] at h1
  cases h1
  refine ⟨s, ?_, h3⟩
  rw [h.total]
  exact h2

theorem Eom.Of.eq (h : Setup E P g) (he : Eom.Of g P e) : ∃ s : Scratch α, Eom.ScrOk s g.d.total ∧ e =
    { n := g.d.total, dt := P.dt, km1 := P.km1, k0 := P.k0, k1 := P.k1, k2 := P.k2, v2 := P.V2, v3 := P.V3, v4 := P.V4,
      coef := g.d.mk3 fun ix it _ => Eom.coefAt g P ix it, scr := s, ndebug := g.d.ndebug } := he.eqB h.toBuiltGrid

theorem Eom.Of.wf0 (h : BuiltGrid E P g) (he : Eom.Of g P e) : e.Wf0 g := by
  obtain ⟨s, h1, rfl⟩ := he.eqB h
  exact ⟨rfl, by simp, h1⟩

theorem Eom.Of.wf (h : Setup E P g) (he : Eom.Of g P e) : e.Wf g := ⟨he.wf0 h.toBuiltGrid, h.full⟩

theorem Eom.Of.scr (he : Eom.Of g P e) {s : Scratch α} (hs : s.Sized (P.nx * P.nlat * P.nphi)) :
    Eom.Of g P { e with scr := s } := by
  obtain ⟨e0, s', h1, _, rfl⟩ := he
  exact ⟨e0, s, h1, hs, rfl⟩

theorem Eom.Of.existsB (h : BuiltGrid E P g) : ∃ e, Eom.mk' g P = .ok e ∧ Eom.Of g P e := by
  refine ⟨_, Eom.mk'_eq h.wf P, ⟨_, _, Eom.mk'_eq h.wf P, ?_, rfl⟩⟩
  rw [← h.total]
  simp [Scratch.Sized]

theorem Eom.Of.exists (h : Setup E P g) : ∃ e, Eom.mk' g P = .ok e ∧ Eom.Of g P e := Eom.Of.existsB h.toBuiltGrid

/-- coefficients at a point, from the stored coordinates -/
theorem Eom.Of.coef_atB (h : BuiltGrid E P g) (he : Eom.Of g P e) {ix it ip : Nat} (hx : ix < P.nx) (ht : it < P.nlat)
    (hp : ip < P.nphi) {c : P3 α} (hc : g.getR_th_ph ix it ip = .ok c) :
    g.d.at3 e.coef ix it ip = coefOf P.bh_mass P.bh_spin (invR P.cl P.cl c.x0) c.x1 := by
  obtain ⟨s, _, rfl⟩ := he.eqB h
  have hr := h.inR hx ht hp
  rw [h.wf.getR_eq hr] at hc
  cases hc
  show g.d.at3 (g.d.mk3 fun ix it _ => Eom.coefAt g P ix it) ix it ip = _
  rw [h.wf.ok.at3_mk3 hr]
  unfold Eom.coefAt
  rw [h.cl]

theorem Eom.Of.coef_at (h : Setup E P g) (he : Eom.Of g P e) {ix it ip : Nat} (hx : ix < P.nx) (ht : it < P.nlat)
    (hp : ip < P.nphi) {c : P3 α} (hc : g.getR_th_ph ix it ip = .ok c) :
    g.d.at3 e.coef ix it ip = coefOf P.bh_mass P.bh_spin (invR P.cl P.cl c.x0) c.x1 := he.coef_atB h.toBuiltGrid hx ht hp hc

end generic

section real
variable {M a : ℝ}

theorem docCoef_eq (hM : 0 < M) {r : ℝ} (hr : 0 < r) (θ : ℝ) : coefR M a (1 / r) θ = (docCoef M a r θ).map fin := by
  have hS : 0 < Sig a r θ := by unfold Sig; positivity
  have hSu : Su a (1 / r) θ = Sig a r θ / r ^ 2 := by unfold Su Sig; field_simp
  have hD : Du M a (1 / r) = Del M a r / r ^ 2 := by unfold Du Del; field_simp
  unfold coefR docCoef Coef.map
  rw [hSu, hD]
  generalize Sig a r θ = S at *
  generalize Del M a r = D at *
  have h1 : 1 + 2 * M * r / S ≠ 0 := by positivity
  have h2 : 1 + 2 * M * (1 / r) / (S / r ^ 2) = 1 + 2 * M * r / S := by field_simp
  have h3 : 2 * M * r + S ≠ 0 := by positivity
  have h4 : 2 * M * (1 / r) + S / r ^ 2 = (2 * M * r + S) / r ^ 2 := by field_simp
  dsimp only
  rw [h2, h4]
  congr 1 <;> rw [fin_inj] <;> first | (field_simp; done) | (field_simp; ring)

end real

/-! ## A concrete set-up (used to show that the hypotheses of the theorems are met) -/

/-- the parameters of the examples: `M=1/2`, `a=3/10` (horizon at `9/10`), `L=100`, `V4=100`, grid 33 x 8 x 16 -/
noncomputable def demoQ : Phys := ⟨1/2, 3/10, 100, compR 100 (9/10), 100, 1/100, 0, 1, 0, 0, 1, 0, 100⟩

noncomputable def demoP : ParamRec CR where
  nt := 100
  nx := 33
  nl := 7
  nm := 7
  nlat := 8
  nphi := 16
  t_step_save := 10
  dt := fin (1/100)
  cl := fin 100
  Rmin := fin (compR 100 (9/10))
  Rmax := fin 100
  bh_mass := fin (1/2)
  bh_spin := fin (3/10)
  km1 := fin 0
  k0 := fin 1
  k1 := fin 0
  k2 := fin 0
  V2 := fin 1
  V3 := fin 0
  V4 := fin 100
  id := "compact_pulse".toList
  direction := "ingoing".toList
  amp := fin (1/2)
  rl := fin (-9/10)
  ru := fin (27/10)
  l_ang := 2
  m_ang := 1

theorem demo_is : demoQ.Is demoP := by constructor <;> rfl

theorem demo_ok : demoQ.Ok := by
  refine ⟨?_, ?_, ⟨Or.inr ?_, Or.inr ?_⟩, ?_⟩ <;> simp only [demoQ] <;>
    (try rw [abs_of_pos (show (0:ℝ) < 3/10 by norm_num)]) <;> norm_num

theorem demo_rPlus : rPlus demoQ.M demoQ.a = 9/10 := by
  unfold rPlus
  simp only [demoQ]
  rw [show ((1/2:ℝ) ^ 2 - (3/10) ^ 2) = (2/5) ^ 2 by norm_num, Real.sqrt_sq (by norm_num)]
  norm_num

theorem demo_setup (contig ndebug useCheb : Bool) : ∃ (E : Env CR) (x : ℕ → ℝ) (A : ℕ → ℕ → ℕ → ℝ) (g : Grid CR) (e : Eom CR),
    E.contig = contig ∧ E.ndebug = ndebug ∧ E.useCheb = useCheb ∧ E.Exact 33 7 7 8 16 x A ∧ Setup E demoP g ∧
    Eom.mk' g demoP = .ok e ∧ Eom.Of g demoP e := by
  obtain ⟨E, x, A, h1, h2, h3, h4⟩ := exists_env contig ndebug useCheb (nx := 33) (nl := 7) (nm := 7) (nlat := 8) (nphi := 16)
    (by omega) (by omega) (by omega)
  have hz : Sizes E.useCheb 33 7 8 16 :=
    ⟨by rw [h3]; cases useCheb <;> decide, by omega, by omega, by decide, by decide, by omega⟩
  obtain ⟨g, hg, _⟩ := Grid.ctor_wf h4.sized hz demoP.cl demoP.Rmin demoP.Rmax
  have hS : Setup E demoP g := ⟨⟨h4.sized, hz, hg⟩, by unfold OrdersOk; decide⟩
  obtain ⟨e, he, ho⟩ := Eom.Of.exists hS
  exact ⟨E, x, A, g, e, h1, h2, h3, h4, hS, he, ho⟩

/-- stored coordinates of a grid point, exact arithmetic -/
theorem BuiltGrid.coords {E : Env CR} {P : ParamRec CR} {g : Grid CR} {q : Phys} {x : ℕ → ℝ} {A : ℕ → ℕ → ℕ → ℝ} (hS : BuiltGrid E P g)
    (hq : q.Is P) (hE : E.Exact P.nx P.nl P.nm P.nlat P.nphi x A) {ix it ip : ℕ} (hx : ix < P.nx) (ht : it < P.nlat)
    (hp : ip < P.nphi) : g.getR_th_ph ix it ip = .ok ⟨fin (radPt E.useCheb P.nx q.lo q.up ix), fin (Real.arccos (x it)),
      fin (2 * Real.pi * ip / P.nphi)⟩ := by
  obtain ⟨g', h1, h2⟩ := C07_coordinate_values hE hS.sizes q.L q.lo q.up
  have h3 := hS.grid
  rw [hq.L, hq.lo, hq.up, h1] at h3
  cases h3
  obtain ⟨_, _, _, h4, _⟩ := h2 ix it ip hx ht hp
  exact h4

end SFK
