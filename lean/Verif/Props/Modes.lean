import Verif.Lemmas.Modes
import Verif.Props.Mirror
/-
C105: azimuthal harmonics of a free field evolve independently of each other.
-/
namespace SFK
open Scalar CR

variable {E : Env CR} {P : ParamRec CR} {g : Grid CR} {q : Phys} {x : ℕ → ℝ} {A : ℕ → ℕ → ℕ → ℝ} {e : Eom CR}

/-- a field shifted by `k` points in the azimuth, in new storage -/
noncomputable def Field.rotate (d : Dims) (k : ℕ) (f : Field CR) : Field CR :=
  ⟨"r", tab d.total fun i => gv f.n (d.rot k i), tab d.total fun _ => 0, tab d.total fun _ => 0, tab d.total fun _ => 0, d.total⟩

theorem Field.rotate_sized (d : Dims) (k : ℕ) (f : Field CR) : (f.rotate d k).Sized d.total := by simp [Field.rotate, Field.Sized]

theorem Field.rotate_is (hw : g.d.Ok) (k : ℕ) (f : Field CR) : Rotated g.d k f.n (f.rotate g.d k).n := by
  rw [rotated_iff hw]
  intro i hi
  unfold Field.rotate
  exact gv_tab hi

/-- an array with a single azimuthal harmonic -/
theorem oneOrder_iff (hw : g.d.Ok) {m : ℕ} {v : List CR} {y : ℕ → ℝ} (hv : IsF g.d.total v y) :
    OneOrder g.d m v ↔ ∀ i, i < g.d.total → y (g.d.rot 1 i) + y (g.d.rot (g.d.nphi - 1) i) = 2 * Real.cos (m * (2 * Real.pi / g.d.nphi)) * y i := by
  have hc := fun ix it => circle_iff (m := m) hw.nphi_pos fun ip => y (g.d.pos3 ix it ip)
  constructor
  · intro h i hi
    obtain ⟨k1, k2⟩ := g.d.dec3 hi
    obtain ⟨a, b, hab⟩ := h _ _ k1.1 k1.2.1
    have := (hc (g.d.dX i) (g.d.dT i)).mp ⟨a, b, fun ip hip => by
      have := hab ip hip
      rw [hv.at3 hw ⟨k1.1, k1.2.1, hip⟩, fin_inj] at this
      exact this⟩ _ k1.2.2
    rw [k2] at this
    exact this
  · intro h ix it hx ht
    obtain ⟨a, b, hab⟩ := (hc ix it).mpr fun ip hip => by
      have hr : g.d.InR ix it ip := ⟨hx, ht, hip⟩
      have := h _ (g.d.pos3_lt hr)
      rw [g.d.rot_pos3 hr, g.d.rot_pos3 hr] at this
      exact this
    exact ⟨a, b, fun ip hip => by rw [hv.at3 hw ⟨hx, ht, hip⟩, hab ip hip]⟩

/-- C105: for a free field (constant kinetic function, at most a mass term in the potential) on any black hole, spinning or not: if the
initial field and velocity contain only the azimuthal harmonic `m`, so do field and velocity after any number `N` of steps, as long as the
evolution stays finite. -/
theorem C105_azimuthal_harmonics (h : Exact E P g q x A) (he : Eom.Of g P e) (hk : q.km1 = 0) (hk1 : q.k1 = 0) (hk2 : q.k2 = 0) (hv : q.V3 = 0)
    (hv4 : q.V4 = 0) (J : ℕ → Junk (Cx CR)) {f p : Field CR} (hf : f.Sized (P.nx * P.nlat * P.nphi)) (hp : p.Sized (P.nx * P.nlat * P.nphi))
    (m N : ℕ) (hF : OneOrder g.d m f.n) (hQ : OneOrder g.d m p.n) (hfin : StaysFinite g e f p N) :
    ∃ a F Q, evolve g J e f p N = .ok (a, F, Q) ∧ OneOrder g.d m F.n ∧ OneOrder g.d m Q.n := by
  have ht := h.setup.total
  have hok := h.setup.wf.ok
  obtain ⟨e₀, F, Q, ev, _, sF, sQ, _⟩ := evolve_eq h.setup he J hf hp N
  obtain ⟨aF, aQ⟩ := hfin N le_rfl _ _ _ _ ev
  obtain ⟨y, hy⟩ := aF.isF (n := g.d.total) (by rw [sF.1, ht])
  obtain ⟨z, hz⟩ := aQ.isF (n := g.d.total) (by rw [sQ.1, ht])
  obtain ⟨i1, i2⟩ : AllFin f.n ∧ AllFin p.n := hfin 0 (Nat.zero_le _) J _ _ _ rfl
  obtain ⟨y0, hy0⟩ := i1.isF (n := g.d.total) (by rw [hf.1, ht])
  obtain ⟨z0, hz0⟩ := i2.isF (n := g.d.total) (by rw [hp.1, ht])
  rw [oneOrder_iff hok hy0] at hF
  rw [oneOrder_iff hok hz0] at hQ
  have rs : ∀ (k : ℕ) (f : Field CR), (f.rotate g.d k).Sized (P.nx * P.nlat * P.nphi) := fun k f => by rw [← ht]; exact f.rotate_sized _ _
  -- the two rotated runs
  have rot : ∀ k, StaysFinite g e (f.rotate g.d k) (p.rotate g.d k) N ∧ ∃ a G R, evolve g J e (f.rotate g.d k) (p.rotate g.d k) N = .ok (a, G, R) ∧
      IsF g.d.total G.n (fun i => y (g.d.rot k i)) ∧ IsF g.d.total R.n fun i => z (g.d.rot k i) := by
    intro k
    have key := fun J₁ j (hj : j ≤ N) => C51_rotation_partial h (.inr ⟨hk, hk1, hk2⟩) he he J₁ J₁ hf hp (rs k f) (rs k p) k j (f.rotate_is hok k)
      (p.rotate_is hok k) (fun i hi => hfin i (hi.trans hj))
    have hl : ∀ J₁ j a₁ a₂ F₁ F₂ Q₁ Q₂, evolve g J₁ e f p j = .ok (a₁, F₁, Q₁) →
        evolve g J₁ e (f.rotate g.d k) (p.rotate g.d k) j = .ok (a₂, F₂, Q₂) → F₁.n.length = g.d.total ∧ Q₁.n.length = g.d.total ∧
          F₂.n.length = g.d.total ∧ Q₂.n.length = g.d.total := by
      intro J₁ j a₁ a₂ F₁ F₂ Q₁ Q₂ c1 c2
      obtain ⟨_, _, _, b1, _, z1, z2, _⟩ := evolve_eq h.setup he J₁ hf hp j
      obtain ⟨_, _, _, b2, _, z3, z4, _⟩ := evolve_eq h.setup he J₁ (rs k f) (rs k p) j
      rw [c1] at b1
      rw [c2] at b2
      cases b1
      cases b2
      rw [z1.1, z2.1, z3.1, z4.1]
      exact ⟨ht.symm, ht.symm, ht.symm, ht.symm⟩
    have go : ∀ v w : List CR, v.length = g.d.total → w.length = g.d.total → Rotated g.d k v w → ∀ u, IsF g.d.total v u →
        IsF g.d.total w fun i => u (g.d.rot k i) := by
      intro v w _ hw hr u hu
      refine ⟨hw, fun i hi => ?_⟩
      rw [(rotated_iff hok k v w).mp hr i hi, hu.2 _ (g.d.rot_lt hi)]
    constructor
    · intro j hj J' e' f' p' hev
      obtain ⟨a₁, a₂, F₁, F₂, Q₁, Q₂, c1, c2, c3, c4⟩ := key J' j hj
      rw [hev] at c2
      cases c2
      obtain ⟨l1, l2, l3, l4⟩ := hl _ _ _ _ _ _ _ _ c1 hev
      obtain ⟨d1, d2⟩ := hfin j hj _ _ _ _ c1
      obtain ⟨u1, hu1⟩ := d1.isF l1
      obtain ⟨u2, hu2⟩ := d2.isF l2
      exact ⟨(go _ _ l1 l3 c3 _ hu1).allFin, (go _ _ l2 l4 c4 _ hu2).allFin⟩
    · obtain ⟨a₁, a₂, F₁, F₂, Q₁, Q₂, c1, c2, c3, c4⟩ := key J N le_rfl
      obtain ⟨l1, l2, l3, l4⟩ := hl _ _ _ _ _ _ _ _ c1 c2
      rw [ev] at c1
      cases c1
      exact ⟨_, _, _, c2, go _ _ l1 l3 c3 _ hy, go _ _ l2 l4 c4 _ hz⟩
  obtain ⟨f1, a1, G1, R1, v1, g1, r1⟩ := rot 1
  obtain ⟨f2, a2, G2, R2, v2, g2, r2⟩ := rot (g.d.nphi - 1)
  have rv : ∀ (k : ℕ) (f : Field CR) (u : ℕ → ℝ), IsF g.d.total f.n u → ∀ i, i < g.d.total → gv (f.rotate g.d k).n i = fin (u (g.d.rot k i)) := by
    intro k f u hu i hi
    unfold Field.rotate
    rw [gv_tab hi, hu.2 _ (g.d.rot_lt hi)]
  refine ⟨_, F, Q, ev, ?_⟩
  rw [oneOrder_iff hok hy, oneOrder_iff hok hz]
  generalize Real.cos (m * (2 * Real.pi / g.d.nphi)) = c at *
  by_cases hc : c = 0
  · -- the shifted states are opposite to each other
    obtain ⟨_, _, _, _, _, _, _, _, _, w1, w2, w3, _, _, s1, s2⟩ := C49_superposition h (-1) 0 hk hk1 hk2 hv hv4 he he he J J J (rs (g.d.nphi - 1) f)
      (rs (g.d.nphi - 1) p) (rs (g.d.nphi - 1) f) (rs (g.d.nphi - 1) p) (rs 1 f) (rs 1 p) N
      (fun i hi => by
        have hi' : i < g.d.total := by rw [(f.rotate_sized g.d 1).1] at hi; exact hi
        rw [rv _ _ _ hy0 i hi', rv _ _ _ hy0 i hi', fin_mul, fin_mul, fin_add, fin_inj]
        have := hF i hi'
        rw [hc] at this
        linarith)
      (fun i hi => by
        have hi' : i < g.d.total := by rw [(p.rotate_sized g.d 1).1] at hi; exact hi
        rw [rv _ _ _ hz0 i hi', rv _ _ _ hz0 i hi', fin_mul, fin_mul, fin_add, fin_inj]
        have := hQ i hi'
        rw [hc] at this
        linarith) f2 f2 f1
    rw [v2] at w1 w2
    rw [v1] at w3
    cases w1
    cases w2
    cases w3
    constructor
    · intro i hi
      have := s1 i (by rw [g1.1]; exact hi)
      rw [g1.2 i hi, g2.2 i hi, fin_mul, fin_mul, fin_add, fin_inj] at this
      rw [hc]
      linarith
    · intro i hi
      have := s2 i (by rw [r1.1]; exact hi)
      rw [r1.2 i hi, r2.2 i hi, fin_mul, fin_mul, fin_add, fin_inj] at this
      rw [hc]
      linarith
  · have h2c : (2 * c)⁻¹ * (2 * c) = 1 := inv_mul_cancel₀ (mul_ne_zero two_ne_zero hc)
    obtain ⟨_, _, _, _, _, _, _, _, _, w1, w2, w3, _, _, s1, s2⟩ := C49_superposition h (2 * c)⁻¹ (2 * c)⁻¹ hk hk1 hk2 hv hv4 he he he J J J (rs 1 f)
      (rs 1 p) (rs (g.d.nphi - 1) f) (rs (g.d.nphi - 1) p) hf hp N
      (fun i hi => by
        have hi' : i < g.d.total := by rw [hf.1, ← ht] at hi; exact hi
        rw [rv _ _ _ hy0 i hi', rv _ _ _ hy0 i hi', hy0.2 i hi', fin_mul, fin_mul, fin_add, fin_inj, ← mul_add, hF i hi', ← mul_assoc, h2c, one_mul])
      (fun i hi => by
        have hi' : i < g.d.total := by rw [hp.1, ← ht] at hi; exact hi
        rw [rv _ _ _ hz0 i hi', rv _ _ _ hz0 i hi', hz0.2 i hi', fin_mul, fin_mul, fin_add, fin_inj, ← mul_add, hQ i hi', ← mul_assoc, h2c, one_mul]) f1 f2 hfin
    rw [v1] at w1
    rw [v2] at w2
    rw [ev] at w3
    cases w1
    cases w2
    cases w3
    have h2c' : (2 * c) * (2 * c)⁻¹ = 1 := mul_inv_cancel₀ (mul_ne_zero two_ne_zero hc)
    constructor
    · intro i hi
      have := s1 i (by rw [hy.1]; exact hi)
      rw [hy.2 i hi, g1.2 i hi, g2.2 i hi, fin_mul, fin_mul, fin_add, fin_inj] at this
      rw [this, ← mul_add, ← mul_assoc, h2c', one_mul]
    · intro i hi
      have := s2 i (by rw [hz.1]; exact hi)
      rw [hz.2 i hi, r1.2 i hi, r2.2 i hi, fin_mul, fin_mul, fin_add, fin_inj] at this
      rw [this, ← mul_add, ← mul_assoc, h2c', one_mul]

/-- non-vacuity of C105: on a spinning black hole, a run of 3 steps that stays finite, from data with the azimuthal harmonic 2 that depend on
all three coordinates. -/
example (contig ndebug useCheb : Bool) : ∃ (E : Env CR) (x : ℕ → ℝ) (A : ℕ → ℕ → ℕ → ℝ) (g : Grid CR) (e : Eom CR) (f p : Field CR),
    Exact E freeP g freeQ x A ∧ Eom.Of g freeP e ∧ freeQ.km1 = 0 ∧ freeQ.k1 = 0 ∧ freeQ.k2 = 0 ∧ freeQ.V3 = 0 ∧ freeQ.V4 = 0 ∧ freeQ.a ≠ 0 ∧
    f.Sized (freeP.nx * freeP.nlat * freeP.nphi) ∧ p.Sized (freeP.nx * freeP.nlat * freeP.nphi) ∧ OneOrder g.d 2 f.n ∧ OneOrder g.d 2 p.n ∧
    StaysFinite g e f p 3 ∧ (∀ ix it ip, g.d.InR ix it ip → Real.cos (2 * phiN g.d.nphi ip) ≠ 0 → g.d.at3 f.n ix it ip ≠ fin 0) := by
  obtain ⟨E, x, A, g, e, h, he, ho, h0, h1, h2, hk0, hk⟩ := free_exact contig ndebug useCheb
  have ht := h.setup.total
  have hok := h.setup.wf.ok
  obtain ⟨w, hw⟩ : ∃ w : ℕ → ℝ, w = fun i => ((g.d.dX i : ℝ) + g.d.dT i + 1) * Real.cos (2 * phiN g.d.nphi (g.d.dP i)) := ⟨_, rfl⟩
  obtain ⟨w', hw'⟩ : ∃ w' : ℕ → ℝ, w' = fun i => (g.d.dT i : ℝ) * Real.sin (2 * phiN g.d.nphi (g.d.dP i)) := ⟨_, rfl⟩
  obtain ⟨ε, hε, hs⟩ := C74_small_free_fields_stay_finite h he ho h0 h1 h2 hk0 rfl rfl rfl rfl rfl w w' 3
  obtain ⟨a, ha, hae⟩ : ∃ a, 0 < a ∧ a < ε := ⟨ε / 2, by linarith, by linarith⟩
  obtain ⟨mk, hmkd⟩ : ∃ mk : (ℕ → ℝ) → Field CR, mk = fun w => ⟨"f", tab g.d.total fun i => fin (w i), tab g.d.total fun i => fin (w i),
    tab g.d.total fun i => fin (w i), tab g.d.total fun i => fin (w i), g.d.total⟩ := ⟨_, rfl⟩
  have hmk : ∀ w, (mk w).Sized (freeP.nx * freeP.nlat * freeP.nphi) := fun w => by rw [← ht, hmkd]; simp [Field.Sized]
  have hgv : ∀ (w : ℕ → ℝ) i, i < g.d.total → gv (mk w).n i = fin (w i) := fun w i hi => by rw [hmkd]; exact gv_tab hi
  have hgv' : ∀ (w : ℕ → ℝ) i, i < freeP.nx * freeP.nlat * freeP.nphi → gv (mk w).n i = fin (w i) := fun w i hi => hgv w i (by rwa [ht])
  have h3 : ∀ (w : ℕ → ℝ) ix it ip, g.d.InR ix it ip → g.d.at3 (mk w).n ix it ip = fin (w (g.d.pos3 ix it ip)) := fun w ix it ip hr => by
    rw [hok.at3_eq _ hr]; exact hgv w _ (g.d.pos3_lt hr)
  refine ⟨E, x, A, g, e, mk fun i => a * w i, mk fun i => a * w' i, h, he, rfl, rfl, rfl, rfl, rfl, by simp only [freeQ, demoQ]; norm_num, hmk _, hmk _, ?_, ?_,
    hs a (by rw [abs_of_pos ha]; exact hae) _ _ (hmk _) (hmk _) (hgv' _) (hgv' _), ?_⟩
  · intro ix it hx htt
    refine ⟨a * ((ix : ℝ) + it + 1), 0, fun ip hip => ?_⟩
    have hr : g.d.InR ix it ip := ⟨hx, htt, hip⟩
    rw [h3 _ _ _ _ hr, hw]
    beta_reduce
    rw [g.d.dX_pos3 hr, g.d.dT_pos3 hr, g.d.dP_pos3 hr, fin_inj]
    push_cast
    ring
  · intro ix it hx htt
    refine ⟨0, a * (it : ℝ), fun ip hip => ?_⟩
    have hr : g.d.InR ix it ip := ⟨hx, htt, hip⟩
    rw [h3 _ _ _ _ hr, hw']
    beta_reduce
    rw [g.d.dT_pos3 hr, g.d.dP_pos3 hr, fin_inj]
    push_cast
    ring
  · intro ix it ip hr hc
    rw [h3 _ _ _ _ hr, hw]
    beta_reduce
    rw [g.d.dX_pos3 hr, g.d.dT_pos3 hr, g.d.dP_pos3 hr, Ne, fin_inj]
    exact mul_ne_zero ha.ne' (mul_ne_zero (by positivity) hc)

end SFK
