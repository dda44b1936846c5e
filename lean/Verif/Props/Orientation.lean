import Verif.Lemmas.PulseRun
import Verif.Props.Mirror
import Verif.Props.Azimuth
/-
C121: the tables of a run do not depend on how the data is oriented.
-/
namespace SFK
open Scalar CR

variable {E : Env CR} {P : ParamRec CR} {g : Grid CR} {q : Phys} {x : ℕ → ℝ} {A : ℕ → ℕ → ℕ → ℝ} {e : Eom CR}

theorem power_congr {mtop : ℕ} {c c' : ℕ → ℕ → ℂ} {l : ℕ} (h : ∀ m, m ≤ l → m ≤ mtop → Complex.normSq (c' l m) = Complex.normSq (c l m)) :
    power mtop c' l = power mtop c l := by
  unfold power
  rw [h 0 (Nat.zero_le _) (Nat.zero_le _)]
  congr 2
  refine Finset.sum_congr rfl fun m hm => ?_
  rw [Finset.mem_Icc] at hm
  exact h m (by omega) (by omega)

/-- two fields whose coefficients have the same sizes have the same table -/
theorem table_congr (h : Exact E P g q x A) {io : IOEnv CR} {v w : List CR} {y z : ℕ → ℝ} (hv : IsF g.d.total v y) (hw : IsF g.d.total w z)
    {t t' : List (List Char)} (ht : IsTable io g v t) (ht' : IsTable io g w t')
    (hs : ∀ ix l m, ix < P.nx → l < P.nl → m ≤ l → m ≤ P.nm → Complex.normSq (anaN A P.nlat P.nphi (fun it ip => z (g.d.pos3 ix it ip)) l m)
      = Complex.normSq (anaN A P.nlat P.nphi (fun it ip => y (g.d.pos3 ix it ip)) l m)) : t' = t := by
  rw [table_fin h hv ht, table_fin h hw ht']
  unfold valueTable
  congr 1
  refine List.flatMap_congr fun ix hix => ?_
  rw [List.mem_range] at hix
  refine List.map_congr_left fun l hl => ?_
  rw [List.mem_range] at hl
  beta_reduce
  rw [power_congr fun m h1 h2 => hs ix l m hix hl h1 (by omega)]

/-- **C121**: rotating a finite field about the axis by any number of grid points leaves its table as it is. -/
theorem C121_rotated_table (h : Exact E P g q x A) {io : IOEnv CR} {v w : List CR} (hv : v.length = P.nx * P.nlat * P.nphi)
    (hw : w.length = P.nx * P.nlat * P.nphi) (hf : AllFin v) {k : ℕ} (hr : Rotated g.d k v w) {t t' : List (List Char)} (ht : IsTable io g v t)
    (ht' : IsTable io g w t') : t' = t := by
  have hok := h.setup.wf.ok
  have tot := h.setup.total
  obtain ⟨y, hy⟩ := hf.isF (hv.trans tot.symm)
  have hz : IsF g.d.total w fun i => y (g.d.rot k i) :=
    ⟨hw.trans tot.symm, fun i hi => by rw [(rotated_iff hok k v w).mp hr i hi, hy.2 _ (g.d.rot_lt hi)]⟩
  have p2 : 0 < P.nphi := by rw [← h.nphi]; exact hok.nphi_pos
  refine table_congr h hy hz ht ht' fun ix l m hx _ _ _ => ?_
  rw [anaN_congr (w := fun it ip => y (g.d.pos3 ix it ((ip + k) % P.nphi))) fun it ip h1 h2 => by
    beta_reduce
    rw [g.d.rot_pos3 ⟨by rw [h.nx]; exact hx, by rw [h.nlat]; exact h1, by rw [h.nphi]; exact h2⟩, h.nphi],
    anaN_rot p2 k (fun it ip => y (g.d.pos3 ix it ip)), map_mul]
  have : Complex.normSq (Complex.exp (Complex.I * m * phiN P.nphi k)) = 1 := by
    rw [Complex.normSq_eq_norm_sq, show Complex.I * m * (phiN P.nphi k : ℂ) = ((m * phiN P.nphi k : ℝ) : ℂ) * Complex.I by push_cast; ring,
      Complex.norm_exp_ofReal_mul_I, one_pow]
  rw [this, one_mul]

/-- **C121**: reversing the azimuth of a finite field leaves its table as it is. -/
theorem C121_reversed_table (h : Exact E P g q x A) {io : IOEnv CR} {v w : List CR} (hv : v.length = P.nx * P.nlat * P.nphi)
    (hw : w.length = P.nx * P.nlat * P.nphi) (hf : AllFin v) (hr : Reversed g.d v w) {t t' : List (List Char)} (ht : IsTable io g v t)
    (ht' : IsTable io g w t') : t' = t := by
  have hok := h.setup.wf.ok
  have tot := h.setup.total
  obtain ⟨y, hy⟩ := hf.isF (hv.trans tot.symm)
  have hz : IsF g.d.total w fun i => y (g.d.azi i) :=
    ⟨hw.trans tot.symm, fun i hi => by rw [(reversed_iff hok v w).mp hr i hi, hy.2 _ (g.d.azi_lt hi)]⟩
  refine table_congr h hy hz ht ht' fun ix l m hx _ _ _ => ?_
  rw [anaN_congr (w := fun it ip => y (g.d.pos3 ix it (opp P.nphi ip))) fun it ip h1 h2 => by
    beta_reduce
    rw [g.d.azi_pos3 ⟨by rw [h.nx]; exact hx, by rw [h.nlat]; exact h1, by rw [h.nphi]; exact h2⟩, h.nphi],
    anaN_opp (fun it ip => y (g.d.pos3 ix it ip)), Complex.normSq_conj]

/-- **C121**: reflecting a finite field about the equatorial plane leaves its table as it is. -/
theorem C121_mirrored_table (h : Exact E P g q x A) (hs : EquatorSym P.nlat P.nl P.nm x A) {io : IOEnv CR} {v w : List CR}
    (hv : v.length = P.nx * P.nlat * P.nphi) (hw : w.length = P.nx * P.nlat * P.nphi) (hf : AllFin v) (hr : Mirrored g.d v w)
    {t t' : List (List Char)} (ht : IsTable io g v t) (ht' : IsTable io g w t') : t' = t := by
  have hok := h.setup.wf.ok
  have tot := h.setup.total
  obtain ⟨y, hy⟩ := hf.isF (hv.trans tot.symm)
  have hz : IsF g.d.total w fun i => y (g.d.mir i) :=
    ⟨hw.trans tot.symm, fun i hi => by rw [(mirrored_iff hok v w).mp hr i hi, hy.2 _ (g.d.mir_lt hi)]⟩
  refine table_congr h hy hz ht ht' fun ix l m hx hl h1 h2 => ?_
  rw [anaN_congr (w := fun it ip => y (g.d.pos3 ix (P.nlat - 1 - it) ip)) fun it ip h1 h2 => by
    beta_reduce
    rw [g.d.mir_pos3 ⟨by rw [h.nx]; exact hx, by rw [h.nlat]; exact h1, by rw [h.nphi]; exact h2⟩, h.nlat],
    anaN_mir hs (fun it ip => y (g.d.pos3 ix it ip)) hl.le h1 h2, map_mul, Complex.normSq_ofReal, eps_sq, one_mul]

/-- **C121**: changing the sign of a finite field leaves its table as it is. -/
theorem C121_opposite_table (h : Exact E P g q x A) {io : IOEnv CR} {v w : List CR} (hv : v.length = P.nx * P.nlat * P.nphi)
    (hw : w.length = P.nx * P.nlat * P.nphi) (hf : AllFin v) (hr : ∀ i, i < P.nx * P.nlat * P.nphi → gv w i = -gv v i)
    {t t' : List (List Char)} (ht : IsTable io g v t) (ht' : IsTable io g w t') : t' = t := by
  have tot := h.setup.total
  obtain ⟨y, hy⟩ := hf.isF (hv.trans tot.symm)
  have hz : IsF g.d.total w fun i => -y i :=
    ⟨hw.trans tot.symm, fun i hi => by rw [hr i (by rw [← tot]; exact hi), hy.2 i hi, fin_neg]⟩
  refine table_congr h hy hz ht ht' fun ix l m hx hl h1 h2 => ?_
  have e0 : (fun it ip => -y (g.d.pos3 ix it ip)) = fun it ip => (-1) * y (g.d.pos3 ix it ip) + 0 * y (g.d.pos3 ix it ip) := by
    funext it ip; ring
  rw [e0, anaN_comb (-1) 0 (fun it ip => y (g.d.pos3 ix it ip)) (fun it ip => y (g.d.pos3 ix it ip))]
  simp

/-! ### runs -/

/-- a field that has evolved has the size of the grid, and is finite if the evolution stays finite -/
theorem evolved (h : Exact E P g q x A) (he : Eom.Of g P e) {J : ℕ → Junk (Cx CR)} {f p F Q : Field CR} {a : Eom CR}
    (hf : f.Sized (P.nx * P.nlat * P.nphi)) (hp : p.Sized (P.nx * P.nlat * P.nphi)) {N : ℕ} (hev : evolve g J e f p N = .ok (a, F, Q)) :
    F.n.length = P.nx * P.nlat * P.nphi ∧ Q.n.length = P.nx * P.nlat * P.nphi := by
  obtain ⟨s, F', Q', a1, _, a3, a4, _⟩ := evolve_eq h.setup he J hf hp N
  rw [a1] at hev
  injection hev with hev
  injection hev with h1 h2
  injection h2 with h2 h3
  subst h2 h3
  exact ⟨a3.1, a4.1⟩

/-- **C121**: a run from data rotated about the axis by any number of grid points writes, at every step, the same tables of the field and of its
time derivative as the run from the original data, for as long as that stays finite. Needs at most one order missing or a constant kinetic function. -/
theorem C121_rotated_run_partial (h : Exact E P g q x A) (hml : P.nl ≤ P.nm + 1 ∨ q.km1 = 0 ∧ q.k1 = 0 ∧ q.k2 = 0) (io : IOEnv CR) {e₁ e₂ : Eom CR}
    (he₁ : Eom.Of g P e₁) (he₂ : Eom.Of g P e₂) (J₁ J₂ : ℕ → Junk (Cx CR)) {f₁ p₁ f₂ p₂ : Field CR} (hf₁ : f₁.Sized (P.nx * P.nlat * P.nphi))
    (hp₁ : p₁.Sized (P.nx * P.nlat * P.nphi)) (hf₂ : f₂.Sized (P.nx * P.nlat * P.nphi)) (hp₂ : p₂.Sized (P.nx * P.nlat * P.nphi)) (k N : ℕ)
    (hF : Rotated g.d k f₁.n f₂.n) (hQ : Rotated g.d k p₁.n p₂.n) (hfin : StaysFinite g e₁ f₁ p₁ N) :
    ∃ a₁ a₂ F₁ F₂ Q₁ Q₂ tF tQ, evolve g J₁ e₁ f₁ p₁ N = .ok (a₁, F₁, Q₁) ∧ evolve g J₂ e₂ f₂ p₂ N = .ok (a₂, F₂, Q₂) ∧
      IsTable io g F₁.n tF ∧ IsTable io g F₂.n tF ∧ IsTable io g Q₁.n tQ ∧ IsTable io g Q₂.n tQ := by
  obtain ⟨a₁, a₂, F₁, F₂, Q₁, Q₂, c1, c2, c3, c4⟩ := C51_rotation_partial h hml he₁ he₂ J₁ J₂ hf₁ hp₁ hf₂ hp₂ k N hF hQ hfin
  obtain ⟨l1, l2⟩ := evolved h he₁ hf₁ hp₁ c1
  obtain ⟨m1, m2⟩ := evolved h he₂ hf₂ hp₂ c2
  obtain ⟨g1, g2⟩ := hfin N le_rfl J₁ _ _ _ c1
  have T := fun (v : List CR) (hv : v.length = P.nx * P.nlat * P.nphi) => isTable_tableP (io := io) h.setup.wf (hv.trans h.setup.total.symm)
  refine ⟨a₁, a₂, F₁, F₂, Q₁, Q₂, _, _, c1, c2, T _ l1, ?_, T _ l2, ?_⟩
  · rw [← C121_rotated_table h l1 m1 g1 c3 (T _ l1) (T _ m1)]; exact T _ m1
  · rw [← C121_rotated_table h l2 m2 g2 c4 (T _ l2) (T _ m2)]; exact T _ m2

/-- **C121**: a run from data reflected about the equatorial plane writes the same tables. Same restriction. -/
theorem C121_mirrored_run_partial (h : Exact E P g q x A) (hs : EquatorSym P.nlat P.nl P.nm x A)
    (hml : P.nl ≤ P.nm + 1 ∨ q.km1 = 0 ∧ q.k1 = 0 ∧ q.k2 = 0) (io : IOEnv CR) {e₁ e₂ : Eom CR} (he₁ : Eom.Of g P e₁) (he₂ : Eom.Of g P e₂)
    (J₁ J₂ : ℕ → Junk (Cx CR)) {f₁ p₁ f₂ p₂ : Field CR} (hf₁ : f₁.Sized (P.nx * P.nlat * P.nphi)) (hp₁ : p₁.Sized (P.nx * P.nlat * P.nphi))
    (hf₂ : f₂.Sized (P.nx * P.nlat * P.nphi)) (hp₂ : p₂.Sized (P.nx * P.nlat * P.nphi)) (N : ℕ)
    (hF : Mirrored g.d f₁.n f₂.n) (hQ : Mirrored g.d p₁.n p₂.n) (hfin : StaysFinite g e₁ f₁ p₁ N) :
    ∃ a₁ a₂ F₁ F₂ Q₁ Q₂ tF tQ, evolve g J₁ e₁ f₁ p₁ N = .ok (a₁, F₁, Q₁) ∧ evolve g J₂ e₂ f₂ p₂ N = .ok (a₂, F₂, Q₂) ∧
      IsTable io g F₁.n tF ∧ IsTable io g F₂.n tF ∧ IsTable io g Q₁.n tQ ∧ IsTable io g Q₂.n tQ := by
  obtain ⟨a₁, a₂, F₁, F₂, Q₁, Q₂, c1, c2, c3, c4⟩ := C104_reflection_partial h hs hml he₁ he₂ J₁ J₂ hf₁ hp₁ hf₂ hp₂ N hF hQ hfin
  obtain ⟨l1, l2⟩ := evolved h he₁ hf₁ hp₁ c1
  obtain ⟨m1, m2⟩ := evolved h he₂ hf₂ hp₂ c2
  obtain ⟨g1, g2⟩ := hfin N le_rfl J₁ _ _ _ c1
  have T := fun (v : List CR) (hv : v.length = P.nx * P.nlat * P.nphi) => isTable_tableP (io := io) h.setup.wf (hv.trans h.setup.total.symm)
  refine ⟨a₁, a₂, F₁, F₂, Q₁, Q₂, _, _, c1, c2, T _ l1, ?_, T _ l2, ?_⟩
  · rw [← C121_mirrored_table h hs l1 m1 g1 c3 (T _ l1) (T _ m1)]; exact T _ m1
  · rw [← C121_mirrored_table h hs l2 m2 g2 c4 (T _ l2) (T _ m2)]; exact T _ m2

/-- **C121**: around a hole that does not rotate, a run of a field with a constant kinetic function from data with the azimuth reversed writes the
same tables. -/
theorem C121_reversed_run (h : Exact E P g q x A) (ha : q.a = 0) (z1 : q.km1 = 0) (z2 : q.k1 = 0) (z3 : q.k2 = 0) (io : IOEnv CR) {e₁ e₂ : Eom CR}
    (he₁ : Eom.Of g P e₁) (he₂ : Eom.Of g P e₂) (J₁ J₂ : ℕ → Junk (Cx CR)) {f₁ p₁ f₂ p₂ : Field CR} (hf₁ : f₁.Sized (P.nx * P.nlat * P.nphi))
    (hp₁ : p₁.Sized (P.nx * P.nlat * P.nphi)) (hf₂ : f₂.Sized (P.nx * P.nlat * P.nphi)) (hp₂ : p₂.Sized (P.nx * P.nlat * P.nphi)) (N : ℕ)
    (hF : Reversed g.d f₁.n f₂.n) (hQ : Reversed g.d p₁.n p₂.n) (hfin : StaysFinite g e₁ f₁ p₁ N) :
    ∃ a₁ a₂ F₁ F₂ Q₁ Q₂ tF tQ, evolve g J₁ e₁ f₁ p₁ N = .ok (a₁, F₁, Q₁) ∧ evolve g J₂ e₂ f₂ p₂ N = .ok (a₂, F₂, Q₂) ∧
      IsTable io g F₁.n tF ∧ IsTable io g F₂.n tF ∧ IsTable io g Q₁.n tQ ∧ IsTable io g Q₂.n tQ := by
  obtain ⟨a₁, a₂, F₁, F₂, Q₁, Q₂, c1, c2, c3, c4⟩ := C111_no_spin h ha z1 z2 z3 he₁ he₂ J₁ J₂ hf₁ hp₁ hf₂ hp₂ N hF hQ hfin
  obtain ⟨l1, l2⟩ := evolved h he₁ hf₁ hp₁ c1
  obtain ⟨m1, m2⟩ := evolved h he₂ hf₂ hp₂ c2
  obtain ⟨g1, g2⟩ := hfin N le_rfl J₁ _ _ _ c1
  have T := fun (v : List CR) (hv : v.length = P.nx * P.nlat * P.nphi) => isTable_tableP (io := io) h.setup.wf (hv.trans h.setup.total.symm)
  refine ⟨a₁, a₂, F₁, F₂, Q₁, Q₂, _, _, c1, c2, T _ l1, ?_, T _ l2, ?_⟩
  · rw [← C121_reversed_table h l1 m1 g1 c3 (T _ l1) (T _ m1)]; exact T _ m1
  · rw [← C121_reversed_table h l2 m2 g2 c4 (T _ l2) (T _ m2)]; exact T _ m2

/-- **C121**: with `km1=k1=0` and `V3=0` a run from the data with the opposite sign writes the same tables, as long as both runs stay finite. -/
theorem C121_opposite_run (h : Exact E P g q x A) (hk : q.km1 = 0) (hk1 : q.k1 = 0) (hv : q.V3 = 0) (io : IOEnv CR) {e₁ e₂ : Eom CR}
    (he₁ : Eom.Of g P e₁) (he₂ : Eom.Of g P e₂) (J₁ J₂ : ℕ → Junk (Cx CR)) {f₁ p₁ f₂ p₂ : Field CR} (hf₁ : f₁.Sized (P.nx * P.nlat * P.nphi))
    (hp₁ : p₁.Sized (P.nx * P.nlat * P.nphi)) (hf₂ : f₂.Sized (P.nx * P.nlat * P.nphi)) (hp₂ : p₂.Sized (P.nx * P.nlat * P.nphi)) (N : ℕ)
    (hF : ∀ i, i < P.nx * P.nlat * P.nphi → gv f₂.n i = -gv f₁.n i) (hQ : ∀ i, i < P.nx * P.nlat * P.nphi → gv p₂.n i = -gv p₁.n i)
    (hfin₁ : StaysFinite g e₁ f₁ p₁ N) (hfin₂ : StaysFinite g e₂ f₂ p₂ N) :
    ∃ a₁ a₂ F₁ F₂ Q₁ Q₂ tF tQ, evolve g J₁ e₁ f₁ p₁ N = .ok (a₁, F₁, Q₁) ∧ evolve g J₂ e₂ f₂ p₂ N = .ok (a₂, F₂, Q₂) ∧
      IsTable io g F₁.n tF ∧ IsTable io g F₂.n tF ∧ IsTable io g Q₁.n tQ ∧ IsTable io g Q₂.n tQ := by
  obtain ⟨a₁, a₂, F₁, F₂, Q₁, Q₂, c1, c2, c3⟩ := C50_reflection h hk hk1 hv he₁ he₂ J₁ J₂ hf₁ hp₁ hf₂ hp₂ N hF hQ hfin₁ hfin₂
  obtain ⟨l1, l2⟩ := evolved h he₁ hf₁ hp₁ c1
  obtain ⟨m1, m2⟩ := evolved h he₂ hf₂ hp₂ c2
  obtain ⟨g1, g2⟩ := hfin₁ N le_rfl J₁ _ _ _ c1
  have T := fun (v : List CR) (hv : v.length = P.nx * P.nlat * P.nphi) => isTable_tableP (io := io) h.setup.wf (hv.trans h.setup.total.symm)
  refine ⟨a₁, a₂, F₁, F₂, Q₁, Q₂, _, _, c1, c2, T _ l1, ?_, T _ l2, ?_⟩
  · rw [← C121_opposite_table h l1 m1 g1 (fun i hi => (c3 i hi).1) (T _ l1) (T _ m1)]; exact T _ m1
  · rw [← C121_opposite_table h l2 m2 g2 (fun i hi => (c3 i hi).2) (T _ l2) (T _ m2)]; exact T _ m2

/-! ### energy density -/

/-- **C121**: the energy density of a rotated state is the rotated density, and its table is the same wherever the density is finite. At most one
order missing. -/
theorem C121_rotated_density_partial (h : Exact E P g q x A) (hml : P.nl ≤ P.nm + 1) (io : IOEnv CR) {e₁ e₂ : Eom CR}
    (he₁ : Eom.Of g P e₁) (he₂ : Eom.Of g P e₂) (J₁ J₂ : Junk (Cx CR)) {f₁ p₁ f₂ p₂ z₁ z₂ : List CR}
    (hf₁ : f₁.length = P.nx * P.nlat * P.nphi) (hp₁ : p₁.length = P.nx * P.nlat * P.nphi) (hf₂ : f₂.length = P.nx * P.nlat * P.nphi)
    (hp₂ : p₂.length = P.nx * P.nlat * P.nphi) (hz₁ : z₁.length = P.nx * P.nlat * P.nphi) (hz₂ : z₂.length = P.nx * P.nlat * P.nphi) {k : ℕ}
    (hF : Rotated g.d k f₁ f₂) (hQ : Rotated g.d k p₁ p₂) (hfin : AllFin f₁) :
    ∃ a₁ a₂ D₁ D₂, e₁.set_rho g J₁ f₁ p₁ z₁ = .ok (a₁, D₁) ∧ e₂.set_rho g J₂ f₂ p₂ z₂ = .ok (a₂, D₂) ∧ Rotated g.d k D₁ D₂ ∧
      (AllFin D₁ → ∀ t t', IsTable io g D₁ t → IsTable io g D₂ t' → t' = t) := by
  have hS := h.setup
  have ht := hS.total
  have hw := hS.wf
  have key : Rotated g.d k (e₁.rhoP g f₁ p₁) (e₂.rhoP g f₂ p₂) := by
    rw [rotated_iff hw.ok]
    rw [rotated_iff hw.ok] at hF hQ
    intro i hi
    obtain ⟨y, hy⟩ := hfin.isF (hf₁.trans ht.symm)
    obtain ⟨pr, p2r, ph, lap, fl, o⟩ := h.ops
    obtain ⟨X, x1, x2, _⟩ := h.opX
    have hρ : ∀ i, i < g.d.total → g.d.rot k i < g.d.total := fun i hi => g.d.rot_lt hi
    have hc : gv e₂.coef i = gv e₁.coef (g.d.rot k i) := by
      rw [← he₁.coef_rot hS hi]
      obtain ⟨s1, _, rfl⟩ := he₁.eq hS
      obtain ⟨s2, _, rfl⟩ := he₂.eq hS
      rfl
    have hr : ∀ c f p r ph X, e₂.rhoVal c f p r ph X = e₁.rhoVal c f p r ph X := by
      obtain ⟨s1, _, rfl⟩ := he₁.eq hS
      obtain ⟨s2, _, rfl⟩ := he₂.eq hS
      exact fun c f p r ph X => rfl
    unfold Eom.rhoP
    rw [gv_tab hi, gv_tab (g.d.rot_lt hi), hr, hc, hF i hi, hQ i hi, (rot_acts hρ o.pr.1 (o.pr.2.2 k) hy (hf₂.trans ht.symm) hF).2 i hi,
      (rot_acts hρ o.ph.1 (o.ph.2.2 k) hy (hf₂.trans ht.symm) hF).2 i hi, (rot_acts hρ x1 (x2 hml k) hy (hf₂.trans ht.symm) hF).2 i hi]
  refine ⟨_, _, _, _, Eom.set_rho_eq hw (he₁.wf hS) J₁ (hf₁.trans ht.symm) (hp₁.trans ht.symm) (hz₁.trans ht.symm),
    Eom.set_rho_eq hw (he₂.wf hS) J₂ (hf₂.trans ht.symm) (hp₂.trans ht.symm) (hz₂.trans ht.symm), key, fun hD t t' k1 k2 => ?_⟩
  exact C121_rotated_table h (by simp [Eom.rhoP, ht]) (by simp [Eom.rhoP, ht]) hD key k1 k2

/-- **C121**: the same for the reflection about the equatorial plane. -/
theorem C121_mirrored_density_partial (h : Exact E P g q x A) (hs : EquatorSym P.nlat P.nl P.nm x A) (hml : P.nl ≤ P.nm + 1) (io : IOEnv CR)
    {e₁ e₂ : Eom CR} (he₁ : Eom.Of g P e₁) (he₂ : Eom.Of g P e₂) (J₁ J₂ : Junk (Cx CR)) {f₁ p₁ f₂ p₂ z₁ z₂ : List CR}
    (hf₁ : f₁.length = P.nx * P.nlat * P.nphi) (hp₁ : p₁.length = P.nx * P.nlat * P.nphi) (hf₂ : f₂.length = P.nx * P.nlat * P.nphi)
    (hp₂ : p₂.length = P.nx * P.nlat * P.nphi) (hz₁ : z₁.length = P.nx * P.nlat * P.nphi) (hz₂ : z₂.length = P.nx * P.nlat * P.nphi)
    (hF : Mirrored g.d f₁ f₂) (hQ : Mirrored g.d p₁ p₂) (hfin : AllFin f₁) :
    ∃ a₁ a₂ D₁ D₂, e₁.set_rho g J₁ f₁ p₁ z₁ = .ok (a₁, D₁) ∧ e₂.set_rho g J₂ f₂ p₂ z₂ = .ok (a₂, D₂) ∧
      (AllFin D₁ → ∀ t t', IsTable io g D₁ t → IsTable io g D₂ t' → t' = t) := by
  have ht := h.setup.total
  have hw := h.setup.wf
  obtain ⟨a₁, a₂, D₁, D₂, k1, k2, k3⟩ := C104_density_partial h hs hml he₁ he₂ J₁ J₂ hf₁ hp₁ hf₂ hp₂ hz₁ hz₂ hF hQ hfin
  have r1 := Eom.set_rho_eq hw (he₁.wf h.setup) J₁ (hf₁.trans ht.symm) (hp₁.trans ht.symm) (hz₁.trans ht.symm)
  have r2 := Eom.set_rho_eq hw (he₂.wf h.setup) J₂ (hf₂.trans ht.symm) (hp₂.trans ht.symm) (hz₂.trans ht.symm)
  have e1 : D₁ = e₁.rhoP g f₁ p₁ := by rw [k1] at r1; injection r1 with r1; injection r1
  have e2 : D₂ = e₂.rhoP g f₂ p₂ := by rw [k2] at r2; injection r2 with r2; injection r2
  exact ⟨a₁, a₂, D₁, D₂, k1, k2, fun hD t t' l1 l2 => C121_mirrored_table h hs (by rw [e1]; simp [Eom.rhoP, ht])
    (by rw [e2]; simp [Eom.rhoP, ht]) hD k3 l1 l2⟩

/-- A grid and a field that is none of its rotation, its reversal, its reflection and its opposite meet the hypotheses of the table theorems (those of
the run theorems are met by the examples of C50, C51, C104 and C111). -/
example (io : IOEnv CR) : ∃ (E : Env CR) (P : ParamRec CR) (q : Phys) (x : ℕ → ℝ) (A : ℕ → ℕ → ℕ → ℝ) (g : Grid CR) (v v₁ v₂ v₃ v₄ : List CR),
    Exact E P g q x A ∧ EquatorSym P.nlat P.nl P.nm x A ∧ AllFin v ∧ (∀ u ∈ [v, v₁, v₂, v₃, v₄], u.length = P.nx * P.nlat * P.nphi ∧
      ∃ t, IsTable io g u t) ∧ Rotated g.d 5 v v₁ ∧ Reversed g.d v v₂ ∧ Mirrored g.d v v₃ ∧
      (∀ i, i < P.nx * P.nlat * P.nphi → gv v₄ i = -gv v i) ∧ gv v₁ 0 ≠ gv v 0 ∧ gv v₄ 0 ≠ gv v 0 := by
  obtain ⟨E, x, A, h1, h2, h3, h4, h5, h6⟩ := exists_env_mir true false false (nx := freeP.nx) (nl := freeP.nl) (nm := freeP.nm)
    (nlat := freeP.nlat) (nphi := freeP.nphi) (by decide) (by decide) (by decide)
  have hlo : compR 100 (9/10) = 900 / 1009 := by unfold compR; norm_num
  obtain ⟨g, e, h, he⟩ := build_exact (P := freeP) (q := freeQ) h4 (free_sizes _) (by unfold OrdersOk; decide) (by constructor <;> rfl)
    (by simp only [freeQ, demoQ, hlo]; norm_num) (by simp only [freeQ, demoQ]; norm_num)
  have hok := h.setup.wf.ok
  have tot := h.setup.total
  have mk : ∀ y : ℕ → ℝ, (tab g.d.total fun i => fin (y i) : List CR).length = freeP.nx * freeP.nlat * freeP.nphi := fun y => by simp [tot]
  have rd : ∀ (y : ℕ → ℝ) i, i < g.d.total → gv (tab g.d.total fun i => fin (y i) : List CR) i = fin (y i) := fun y i hi => gv_tab hi
  refine ⟨E, freeP, freeQ, x, A, g, tab g.d.total fun i => fin ((i : ℝ) + 1), tab g.d.total fun i => fin ((g.d.rot 5 i : ℝ) + 1),
    tab g.d.total fun i => fin ((g.d.azi i : ℝ) + 1), tab g.d.total fun i => fin ((g.d.mir i : ℝ) + 1),
    tab g.d.total fun i => fin (-((i : ℝ) + 1)), h, h6, ?_, ?_, ?_, ?_, ?_, ?_, ?_, ?_⟩
  · exact (allFin_iff (mk _)).mpr fun i hi => ⟨_, rd _ i (by rw [tot]; exact hi)⟩
  · intro u hu
    have : ∃ y : ℕ → ℝ, u = tab g.d.total fun i => fin (y i) := by
      simp only [List.mem_cons, List.not_mem_nil, or_false] at hu
      rcases hu with rfl | rfl | rfl | rfl | rfl
      · exact ⟨_, rfl⟩
      · exact ⟨_, rfl⟩
      · exact ⟨_, rfl⟩
      · exact ⟨_, rfl⟩
      · exact ⟨_, rfl⟩
    obtain ⟨y, rfl⟩ := this
    exact ⟨mk y, _, isTable_tableP h.setup.wf (by simp)⟩
  · exact (rotated_iff hok _ _ _).mpr fun i hi => by rw [rd _ i hi, rd _ _ (g.d.rot_lt hi)]
  · exact (reversed_iff hok _ _).mpr fun i hi => by rw [rd _ i hi, rd _ _ (g.d.azi_lt hi)]
  · exact (mirrored_iff hok _ _).mpr fun i hi => by rw [rd _ i hi, rd _ _ (g.d.mir_lt hi)]
  · intro i hi
    rw [rd _ i (by rw [tot]; exact hi), rd _ i (by rw [tot]; exact hi), fin_neg]
  · have p : 0 < g.d.total := by rw [tot]; decide
    rw [rd _ 0 p, rd _ 0 p, Ne, fin_inj]
    intro hc
    have h0 : g.d.rot 5 0 = 0 := by exact_mod_cast (add_right_cancel hc : ((g.d.rot 5 0 : ℕ) : ℝ) = ((0 : ℕ) : ℝ))
    have hd := (g.d.rot_dec (k := 5) p).2.2
    have hn : g.d.nphi = 16 := h.nphi
    rw [h0, hn] at hd
    omega
  · have p : 0 < g.d.total := by rw [tot]; decide
    rw [rd _ 0 p, rd _ 0 p, Ne, fin_inj]
    norm_num

end SFK
