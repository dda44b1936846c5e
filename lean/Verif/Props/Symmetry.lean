import Verif.Lemmas.LinEom
import Verif.Props.Kerr
/-
C48-C51: symmetries of the evolution, for any number of steps.
-/
namespace SFK
open Scalar CR Kerr

variable {E : Env CR} {P : ParamRec CR} {g : Grid CR} {q : Phys} {x : ℕ → ℝ} {A : ℕ → ℕ → ℕ → ℝ} {e : Eom CR}

/-! ## Common facts -/

theorem StaysFinite.evoP (hS : Setup E P g) (he : Eom.Of g P e) {f p : Field CR} (hf : f.Sized (P.nx * P.nlat * P.nphi))
    (hp : p.Sized (P.nx * P.nlat * P.nphi)) {N : ℕ} (h : StaysFinite g e f p N) (j : ℕ) (hj : j ≤ N) :
    AllFin (evoP e g f.n p.n j).1 ∧ AllFin (evoP e g f.n p.n j).2 := by
  obtain ⟨s, f', p', h1, _, _, _, h5, h6⟩ := evolve_eq hS he (fun _ => fun _ _ => default) hf hp j
  rw [← h5, ← h6]
  exact h j hj _ _ _ _ h1

/-- coefficients do not depend on the azimuth -/
theorem Eom.Of.coef_rot (hS : Setup E P g) (he : Eom.Of g P e) {k i : ℕ} (hi : i < g.d.total) :
    gv e.coef i = gv e.coef (g.d.rot k i) := by
  obtain ⟨s, _, rfl⟩ := he.eq hS
  obtain ⟨r1, r2, r3⟩ := g.d.rot_dec (k := k) hi
  show gv (g.d.mk3 fun ix it _ => Eom.coefAt g P ix it : List (Coef CR)) _ = gv (g.d.mk3 fun ix it _ => Eom.coefAt g P ix it : List (Coef CR)) _
  unfold Dims.mk3
  rw [gv_tab hi, gv_tab (g.d.rot_lt hi), r1, r2]

/-! ## C51 -/

theorem rot_acts {n : ℕ} {ρ : ℕ → ℕ} (hρ : ∀ i, i < n → ρ i < n) {T : List CR → List CR} {D : (ℕ → ℝ) → ℕ → ℝ} (a : ActsF n T D)
    (b : RotF n ρ D) {v w : List CR} {u : ℕ → ℝ} (hv : IsF n v u) (hw : w.length = n) (h : ∀ i, i < n → gv w i = gv v (ρ i)) :
    IsF n w (fun i => u (ρ i)) ∧ ∀ i, i < n → gv (T w) i = gv (T v) (ρ i) := by
  have hw' : IsF n w (fun i => u (ρ i)) := ⟨hw, fun i hi => by rw [h i hi, hv.2 _ (hρ i hi)]⟩
  refine ⟨hw', fun i hi => ?_⟩
  rw [(a w _ hw').2 i hi, (a v u hv).2 _ (hρ i hi), b u i hi]

/-- with a constant kinetic function the squared gradient is multiplied by zero -/
theorem pk_noX {c : Coef CR} {f p r vr rr ph rph X lap : CR} {y : ℝ} (h : e.pk c f p r vr rr ph rph X lap = fin y)
    (h1 : e.km1 = fin 0) (h2 : e.k1 = fin 0) (h3 : e.k2 = fin 0) (X' : ℝ) : e.pk c f p r vr rr ph rph (fin X') lap = fin y := by
  obtain ⟨cc, kp, ik, vp, f', p', r', vr', rr', ph', rph', X0, lap', ⟨c1, c2, c3, c4, c5, c6, c7, c8, c9, c10, c11, c12⟩, ⟨m1, m2, m3⟩,
      ⟨v1, v2, v3, v4, v5, v6, v7, v8, v9⟩, rfl⟩ := pk_fin h
  have hk : kp = 0 := by
    unfold Eom.kprime at m1
    obtain ⟨_, _, n1, n2, rfl⟩ := add_fin m1
    obtain ⟨_, _, n3, n4, rfl⟩ := add_fin n1
    obtain ⟨_, _, n5, _, _, rfl⟩ := div_fin n3
    obtain ⟨_, _, n6, _, rfl⟩ := mul_fin n2
    rw [h1, fin_neg, fin_inj] at n5
    rw [h2, fin_inj] at n4
    rw [h3, fin_inj] at n6
    rw [← n4, ← n5, ← n6]
    simp
  subst hk
  unfold Eom.pk
  rw [c1, c2, c3, c4, c5, c6, c7, c8, c9, c10, c11, c12, m1, m2, m3, v1, v2, v3, v4, v5, v6, v8]
  simp only [fin_lit, fin_mul, fin_add, fin_sub, fin_pown, fin_inj]
  push_cast
  ring

theorem sym_rot (h : Exact E P g q x A) (he : Eom.Of g P e) (hml : P.nl ≤ P.nm + 1 ∨ q.km1 = 0 ∧ q.k1 = 0 ∧ q.k2 = 0) (k : ℕ) :
    Sym e g (ι := Bool) (fun r => r = false) fun v => ∀ i, i < g.d.total → gv (v true) i = gv (v false) (g.d.rot k i) := by
  obtain ⟨pr, p2r, ph, lap, fl, o⟩ := h.ops
  obtain ⟨X, x1, x2, _⟩ := h.opX
  obtain ⟨q1, q2, q3, q4, _⟩ := he.par h.setup h.phys
  have hρ : ∀ i, i < g.d.total → g.d.rot k i < g.d.total := fun i hi => g.d.rot_lt hi
  refine ⟨?_, ?_, ?_⟩
  · intro u w c h1 h2 i hi
    rw [Eom.ax_gv hi, Eom.ax_gv (hρ i hi), h1 i hi, h2 i hi]
  · intro u hl hf h1
    obtain ⟨y, hy⟩ := (hf false rfl).isF (hl false)
    exact (rot_acts hρ o.fl.1 (o.fl.2.2 k) hy (hl true) h1).2
  · intro u w hl hl' hf hf' hr h1 h2 i hi
    obtain ⟨y, hy⟩ := (hf false rfl).isF (hl false)
    obtain ⟨z, hz⟩ := (hf' false rfl).isF (hl' false)
    have e1 := rot_acts hρ o.pr.1 (o.pr.2.2 k) hy (hl true) h1
    have e2 := rot_acts hρ o.pr.1 (o.pr.2.2 k) hz (hl' true) h2
    have e3 := rot_acts hρ o.p2r.1 (o.p2r.2.2 k) hy (hl true) h1
    have e4 := rot_acts hρ o.ph.1 (o.ph.2.2 k) hy (hl true) h1
    have e5 := rot_acts hρ o.pr.1 (o.pr.2.2 k) (o.ph.1 _ _ hy) (by simp) e4.2
    have e7 := rot_acts hρ o.lap.1 (o.lap.2.2 k) hy (hl true) h1
    obtain ⟨rf, hrf⟩ := (hr false rfl).isF (n := g.d.total) (by simp)
    have kf := hrf.2 _ (hρ i hi)
    rw [kf]
    unfold Eom.rhs at kf ⊢
    rw [gv_tab (hρ i hi)] at kf
    rw [gv_tab hi, he.coef_rot (k := k) h.setup hi, h1 i hi, h2 i hi, e1.2 i hi, e2.2 i hi, e3.2 i hi, e4.2 i hi, e5.2 i hi, e7.2 i hi]
    rcases hml with hml | ⟨z1, z2, z3⟩
    · have e6 := rot_acts hρ x1 (x2 hml k) hy (hl true) h1
      rw [e6.2 i hi]
      exact kf
    · have hyt : IsF g.d.total (u true) fun j => y (g.d.rot k j) := e1.1
      rw [(x1 _ _ hyt).2 i hi]
      exact pk_noX kf (by rw [q1, z1]) (by rw [q3, z2]) (by rw [q4, z3]) _

theorem rotated_iff (hw : g.d.Ok) (k : ℕ) (v w : List CR) :
    Rotated g.d k v w ↔ ∀ i, i < g.d.total → gv w i = gv v (g.d.rot k i) := by
  constructor
  · intro h i hi
    obtain ⟨h1, h2⟩ := g.d.dec3 hi
    have hr : g.d.InR (g.d.dX i) (g.d.dT i) ((g.d.dP i + k) % g.d.nphi) := ⟨h1.1, h1.2.1, Nat.mod_lt _ (by have := h1.2.2; omega)⟩
    have := h _ _ _ h1.1 h1.2.1 h1.2.2
    rw [hw.at3_eq _ h1, hw.at3_eq _ hr, h2] at this
    exact this
  · intro h ix it ip hx ht hp
    have hr : g.d.InR ix it ip := ⟨hx, ht, hp⟩
    rw [hw.at3_eq _ hr, hw.at3_eq _ ⟨hx, ht, Nat.mod_lt _ (by omega)⟩, h _ (g.d.pos3_lt hr), g.d.rot_pos3 hr]

/-- C51: for a state `(f₁,p₁)` whose evolution stays finite for `N` steps, evolving the state shifted by `k` azimuthal points gives the
evolved state shifted by `k` points, whatever the scratch arrays and the uninitialised memory contain in the two runs.  Needs at most one
order missing (`nm≥nl-1`) or a constant kinetic function (`km1=k1=k2=0`); otherwise see C51_axisymmetry_violated. -/
theorem C51_rotation_partial (h : Exact E P g q x A) (hml : P.nl ≤ P.nm + 1 ∨ q.km1 = 0 ∧ q.k1 = 0 ∧ q.k2 = 0) {e₁ e₂ : Eom CR} (he₁ : Eom.Of g P e₁) (he₂ : Eom.Of g P e₂)
    (J₁ J₂ : ℕ → Junk (Cx CR)) {f₁ p₁ f₂ p₂ : Field CR} (hf₁ : f₁.Sized (P.nx * P.nlat * P.nphi)) (hp₁ : p₁.Sized (P.nx * P.nlat * P.nphi))
    (hf₂ : f₂.Sized (P.nx * P.nlat * P.nphi)) (hp₂ : p₂.Sized (P.nx * P.nlat * P.nphi)) (k N : ℕ)
    (hF : Rotated g.d k f₁.n f₂.n) (hQ : Rotated g.d k p₁.n p₂.n) (hfin : StaysFinite g e₁ f₁ p₁ N) :
    ∃ a₁ a₂ F₁ F₂ Q₁ Q₂, evolve g J₁ e₁ f₁ p₁ N = .ok (a₁, F₁, Q₁) ∧ evolve g J₂ e₂ f₂ p₂ N = .ok (a₂, F₂, Q₂) ∧
      Rotated g.d k F₁.n F₂.n ∧ Rotated g.d k Q₁.n Q₂.n := by
  have hS := h.setup
  have ht := hS.total
  have hev : evoP e₂ g f₂.n p₂.n N = evoP e₁ g f₂.n p₂.n N := by
    obtain ⟨s1, _, rfl⟩ := he₁.eq hS
    obtain ⟨s2, _, rfl⟩ := he₂.eq hS
    induction N with
    | zero => rfl
    | succ N ih =>
      have := ih fun j hj => hfin j (by omega)
      unfold evoP
      rw [this]
      rfl
  obtain ⟨s1, F₁, Q₁, a1, _, _, _, a5, a6⟩ := evolve_eq hS he₁ J₁ hf₁ hp₁ N
  obtain ⟨s2, F₂, Q₂, b1, _, _, _, b5, b6⟩ := evolve_eq hS he₂ J₂ hf₂ hp₂ N
  refine ⟨_, _, F₁, F₂, Q₁, Q₂, a1, b1, ?_⟩
  obtain ⟨_, _, _, _, _, _, _, hdt⟩ := he₁.par hS h.phys
  have key := (sym_rot h he₁ hml k).evo hdt (F := fun r => if r then f₂.n else f₁.n) (Q := fun r => if r then p₂.n else p₁.n)
    (fun r => by cases r <;> simp [hf₁.1, hf₂.1, ht]) (fun r => by cases r <;> simp [hp₁.1, hp₂.1, ht])
    (by simpa using (rotated_iff hS.wf.ok k _ _).mp hF) (by simpa using (rotated_iff hS.wf.ok k _ _).mp hQ) N
    (fun r hr j hj => by subst hr; simpa using hfin.evoP hS he₁ hf₁ hp₁ j hj)
  rw [rotated_iff hS.wf.ok, rotated_iff hS.wf.ok, a5, a6, b5, b6, hev]
  simpa using key

/-- C51, axisymmetry: a state that does not depend on the azimuth still does not depend on it after any number of steps (as long as the
evolution stays finite).  Same restriction as C51_rotation_partial. -/
theorem C51_axisymmetry_partial (h : Exact E P g q x A) (hml : P.nl ≤ P.nm + 1 ∨ q.km1 = 0 ∧ q.k1 = 0 ∧ q.k2 = 0) (he : Eom.Of g P e)
    (J : ℕ → Junk (Cx CR)) {f p : Field CR} (hf : f.Sized (P.nx * P.nlat * P.nphi)) (hp : p.Sized (P.nx * P.nlat * P.nphi)) (N : ℕ)
    (hF : ∀ ix it ip ip', ix < P.nx → it < P.nlat → ip < P.nphi → ip' < P.nphi → g.d.at3 f.n ix it ip = g.d.at3 f.n ix it ip')
    (hQ : ∀ ix it ip ip', ix < P.nx → it < P.nlat → ip < P.nphi → ip' < P.nphi → g.d.at3 p.n ix it ip = g.d.at3 p.n ix it ip')
    (hfin : StaysFinite g e f p N) :
    ∃ a F Q, evolve g J e f p N = .ok (a, F, Q) ∧
      ∀ ix it ip ip', ix < P.nx → it < P.nlat → ip < P.nphi → ip' < P.nphi →
        g.d.at3 F.n ix it ip = g.d.at3 F.n ix it ip' ∧ g.d.at3 Q.n ix it ip = g.d.at3 Q.n ix it ip' := by
  obtain ⟨s, F, Q, a1, _⟩ := evolve_eq h.setup he J hf hp N
  refine ⟨_, F, Q, a1, ?_⟩
  intro ix it ip ip' hx ht hip hip'
  have e1 := h.nx
  have e2 := h.nlat
  have e3 := h.nphi
  have rot : ∀ k, Rotated g.d k F.n F.n ∧ Rotated g.d k Q.n Q.n := by
    intro k
    have mk : ∀ v : List CR, (∀ ix it ip ip', ix < P.nx → it < P.nlat → ip < P.nphi → ip' < P.nphi → g.d.at3 v ix it ip = g.d.at3 v ix it ip') →
        Rotated g.d k v v := fun v hv ix it ip hx ht hp =>
      hv _ _ _ _ (e1 ▸ hx) (e2 ▸ ht) (e3 ▸ hp) (by rw [← e3]; exact Nat.mod_lt _ (by omega))
    obtain ⟨b1, b2, F1, F2, Q1, Q2, c1, c2, c3, c4⟩ := C51_rotation_partial h hml he he J J hf hp hf hp k N (mk _ hF) (mk _ hQ) hfin
    rw [a1] at c1 c2
    cases c1
    cases c2
    exact ⟨c3, c4⟩
  have hk : (ip + (ip' + P.nphi - ip)) % P.nphi = ip' := by
    rw [show ip + (ip' + P.nphi - ip) = ip' + P.nphi by omega, Nat.add_mod_right, Nat.mod_eq_of_lt hip']
  obtain ⟨r1, r2⟩ := rot (ip' + P.nphi - ip)
  have k1 := r1 ix it ip (e1 ▸ hx) (e2 ▸ ht) (e3 ▸ hip)
  have k2 := r2 ix it ip (e1 ▸ hx) (e2 ▸ ht) (e3 ▸ hip)
  rw [e3, hk] at k1 k2
  exact ⟨k1, k2⟩

/-! ## C50 -/

theorem lin_neg {n : ℕ} {T : List CR → List CR} {D : (ℕ → ℝ) → ℕ → ℝ} (a : ActsF n T D) (b : LinF n D) {v w : List CR} {u : ℕ → ℝ}
    (_hv : IsF n v u) (hw : IsF n w fun i => -u i) : IsF n (T w) fun i => -D u i := by
  have := a w _ hw
  refine this.congr fun i hi => ?_
  have h2 := b (-1) 0 u u i hi
  rw [show (fun j => -u j) = fun j => -1 * u j + 0 * u j by funext j; ring, h2]
  ring

theorem sym_flip (h : Exact E P g q x A) (he : Eom.Of g P e) (h1 : q.km1 = 0) (h2 : q.k1 = 0) (h3 : q.V3 = 0) :
    Sym e g (ι := Bool) (fun _ => True) fun v => ∀ i, i < g.d.total → gv (v true) i = -gv (v false) i := by
  obtain ⟨pr, p2r, ph, lap, fl, o⟩ := h.ops
  obtain ⟨X, x1, _, x3⟩ := h.opX
  obtain ⟨q1, q2, q3, q4, q5, q6, q7, _⟩ := he.par h.setup h.phys
  rw [h1] at q1
  rw [h2] at q3
  rw [h3] at q6
  have toF : ∀ u : Bool → List CR, (∀ r, (u r).length = g.d.total) → (∀ r, True → AllFin (u r)) →
      (∀ i, i < g.d.total → gv (u true) i = -gv (u false) i) → ∃ y, IsF g.d.total (u false) y ∧ IsF g.d.total (u true) fun i => -y i := by
    intro u hl hf hr
    obtain ⟨y, hy⟩ := (hf false trivial).isF (hl false)
    exact ⟨y, hy, hl true, fun i hi => by rw [hr i hi, hy.2 i hi, fin_neg]⟩
  refine ⟨?_, ?_, ?_⟩
  · intro u w c h1 h2 i hi
    rw [Eom.ax_gv hi, Eom.ax_gv hi, h1 i hi, h2 i hi]
    cases gv (u false) i <;> cases gv (w false) i <;> try rfl
    simp only [fin_neg, fin_mul, fin_add, fin_inj]
    ring
  · intro u hl hf h1 i hi
    obtain ⟨y, hy, hz⟩ := toF u hl hf h1
    rw [(o.fl.1 _ _ hy).2 i hi, (lin_neg o.fl.1 o.fl.2.1 hy hz).2 i hi, fin_neg]
  · intro u w hl hl' hf hf' hr h1 h2 i hi
    obtain ⟨y, hy, hy'⟩ := toF u hl hf h1
    obtain ⟨z, hz, hz'⟩ := toF w hl' hf' h2
    have e1 := lin_neg o.pr.1 o.pr.2.1 hy hy'
    have e2 := lin_neg o.pr.1 o.pr.2.1 hz hz'
    have e3 := lin_neg o.p2r.1 o.p2r.2.1 hy hy'
    have e4 := lin_neg o.ph.1 o.ph.2.1 hy hy'
    have e5 := lin_neg o.pr.1 o.pr.2.1 (o.ph.1 _ _ hy) e4
    have e7 := lin_neg o.lap.1 o.lap.2.1 hy hy'
    have e6 : gv (g.psphXP (u true)) i = gv (g.psphXP (u false)) i := by
      rw [(x1 _ _ hy).2 i hi, (x1 _ _ hy').2 i hi, show (fun i => -y i) = fun j => -1 * y j by funext j; ring, x3 (-1) y i hi]
      simp
    obtain ⟨rt, hrt⟩ := (hr true trivial).isF (n := g.d.total) (by simp)
    obtain ⟨rf, hrf⟩ := (hr false trivial).isF (n := g.d.total) (by simp)
    have kt := hrt.2 i hi
    have kf := hrf.2 i hi
    rw [kt, kf, fin_neg, fin_inj]
    unfold Eom.rhs at kt kf
    rw [gv_tab hi, hy'.2 i hi, hz'.2 i hi, e1.2 i hi, e2.2 i hi, e3.2 i hi, e4.2 i hi, e5.2 i hi, e6, e7.2 i hi] at kt
    rw [gv_tab hi, hy.2 i hi, hz.2 i hi, (o.pr.1 _ _ hy).2 i hi, (o.pr.1 _ _ hz).2 i hi, (o.p2r.1 _ _ hy).2 i hi, (o.ph.1 _ _ hy).2 i hi,
      (o.pr.1 _ _ (o.ph.1 _ _ hy)).2 i hi, (o.lap.1 _ _ hy).2 i hi] at kf
    obtain ⟨cc, kp, ik, vp, f', p', r', vr', rr', ph', rph', X', lap', ⟨c1, c2, c3, c4, c5, c6, c7, c8, c9, c10, c11, c12⟩, ⟨m1, m2, m3⟩,
      ⟨v1, v2, v3, v4, v5, v6, v7, v8, v9⟩, kf⟩ := pk_fin kf
    obtain ⟨dd, kp2, ik2, vp2, f2', p2', r2', vr2', rr2', ph2', rph2', X2', lap2', ⟨d1, d2, d3, d4, d5, d6, d7, d8, d9, d10, d11, d12⟩, ⟨n1, n2, n3⟩,
      ⟨w1, w2, w3, w4, w5, w6, w7, w8, w9⟩, kt⟩ := pk_fin kt
    rw [c1, fin_inj] at d1
    rw [c2, fin_inj] at d2
    rw [c3, fin_inj] at d3
    rw [c4, fin_inj] at d4
    rw [c5, fin_inj] at d5
    rw [c6, fin_inj] at d6
    rw [c7, fin_inj] at d7
    rw [c8, fin_inj] at d8
    rw [c9, fin_inj] at d9
    rw [c10, fin_inj] at d10
    rw [c11, fin_inj] at d11
    rw [c12, fin_inj] at d12
    rw [v7, fin_inj] at w7
    rw [fin_inj] at v1 v2 v3 v4 v5 v6 v8 v9 w1 w2 w3 w4 w5 w6 w8 w9
    -- the kinetic factors
    have hne : y i + 1 ≠ 0 ∧ -y i + 1 ≠ 0 := by
      unfold Eom.inverseK at m2 n2
      constructor
      · obtain ⟨_, _, _, m2, _, _⟩ := div_fin m2
        obtain ⟨_, _, m2, _, _⟩ := add_fin m2
        obtain ⟨_, _, m2, _, _⟩ := add_fin m2
        obtain ⟨_, _, _, m2, _⟩ := add_fin m2
        obtain ⟨_, b, _, m2, hb, _⟩ := div_fin m2
        rw [fin_ofNat_one, fin_add, fin_inj] at m2
        rw [m2]; exact hb
      · obtain ⟨_, _, _, m2, _, _⟩ := div_fin n2
        obtain ⟨_, _, m2, _, _⟩ := add_fin m2
        obtain ⟨_, _, m2, _, _⟩ := add_fin m2
        obtain ⟨_, _, _, m2, _⟩ := add_fin m2
        obtain ⟨_, b, _, m2, hb, _⟩ := div_fin m2
        rw [fin_ofNat_one, fin_add, fin_inj] at m2
        rw [m2]; exact hb
    have hik : ik2 = ik := by
      unfold Eom.inverseK at m2 n2
      rw [q1, q2, q3, q4] at m2 n2
      have : (fin (-y i) : CR) = fin (-(y i)) := rfl
      simp only [fin_ofNat_one, fin_ofNat', fin_add, fin_div _ _ hne.1, fin_div _ _ hne.2, fin_mul, fin_pown,
        fin_div _ _ (two_ne_zero (α := ℝ))] at m2 n2
      rw [show q.k0 + 0 / (-y i + 1) + 0 * -y i + q.k2 / 2 * (-y i) ^ 2 = q.k0 + 0 / (y i + 1) + 0 * y i + q.k2 / 2 * y i ^ 2 by simp, m2, fin_inj] at n2
      exact n2.symm
    have hkp : kp2 = -kp := by
      unfold Eom.kprime at m1 n1
      rw [q1, q3, q4] at m1 n1
      simp only [fin_ofNat_one, fin_neg, fin_add, fin_pown, fin_div _ _ (pow_ne_zero 2 hne.1), fin_div _ _ (pow_ne_zero 2 hne.2), fin_mul, fin_inj] at m1 n1
      rw [← m1, ← n1]
      simp
    have hvp : vp2 = -vp := by
      unfold Eom.vprime at m3 n3
      rw [m2, q5, q6, q7] at m3
      rw [n2, q5, q6, q7] at n3
      simp only [fin_ofNat', fin_mul, fin_pown, fin_add, fin_div _ _ (two_ne_zero (α := ℝ)), fin_div _ _ (show (6:ℝ) ≠ 0 by norm_num), fin_inj] at m3 n3
      rw [← m3, ← n3, hik]
      ring
    rw [kt, kf, ← d1, ← d2, ← d3, ← d4, ← d5, ← d6, ← d7, ← d8, ← d9, ← d10, ← d11, ← d12, ← w7, ← w1, ← w2, ← w3, ← w4, ← w5, ← w6, ← w8,
      ← v1, ← v2, ← v3, ← v4, ← v5, ← v6, ← v8, hik, hkp, hvp]
    ring

/-- C50: when `km1 = k1 = 0` and `V3 = 0`, evolving the state with the opposite sign gives the evolved state with the opposite sign, for
any number of steps, as long as both evolutions stay finite (the code's `km1/(f+1)` has a pole at `f=-1` even for `km1=0`). -/
theorem C50_reflection (h : Exact E P g q x A) (hk : q.km1 = 0) (hk1 : q.k1 = 0) (hv : q.V3 = 0)
    {e₁ e₂ : Eom CR} (he₁ : Eom.Of g P e₁) (he₂ : Eom.Of g P e₂) (J₁ J₂ : ℕ → Junk (Cx CR)) {f₁ p₁ f₂ p₂ : Field CR}
    (hf₁ : f₁.Sized (P.nx * P.nlat * P.nphi)) (hp₁ : p₁.Sized (P.nx * P.nlat * P.nphi))
    (hf₂ : f₂.Sized (P.nx * P.nlat * P.nphi)) (hp₂ : p₂.Sized (P.nx * P.nlat * P.nphi)) (N : ℕ)
    (hF : ∀ i, i < P.nx * P.nlat * P.nphi → gv f₂.n i = -gv f₁.n i) (hQ : ∀ i, i < P.nx * P.nlat * P.nphi → gv p₂.n i = -gv p₁.n i)
    (hfin₁ : StaysFinite g e₁ f₁ p₁ N) (hfin₂ : StaysFinite g e₂ f₂ p₂ N) :
    ∃ a₁ a₂ F₁ F₂ Q₁ Q₂, evolve g J₁ e₁ f₁ p₁ N = .ok (a₁, F₁, Q₁) ∧ evolve g J₂ e₂ f₂ p₂ N = .ok (a₂, F₂, Q₂) ∧
      ∀ i, i < P.nx * P.nlat * P.nphi → gv F₂.n i = -gv F₁.n i ∧ gv Q₂.n i = -gv Q₁.n i := by
  have hS := h.setup
  have ht := hS.total
  have hev : ∀ N, evoP e₂ g f₂.n p₂.n N = evoP e₁ g f₂.n p₂.n N := by
    intro N
    obtain ⟨s1, _, rfl⟩ := he₁.eq hS
    obtain ⟨s2, _, rfl⟩ := he₂.eq hS
    induction N with
    | zero => rfl
    | succ N ih => unfold evoP; rw [ih]; rfl
  obtain ⟨s1, F₁, Q₁, a1, _, _, _, a5, a6⟩ := evolve_eq hS he₁ J₁ hf₁ hp₁ N
  obtain ⟨s2, F₂, Q₂, b1, _, _, _, b5, b6⟩ := evolve_eq hS he₂ J₂ hf₂ hp₂ N
  refine ⟨_, _, F₁, F₂, Q₁, Q₂, a1, b1, ?_⟩
  obtain ⟨_, _, _, _, _, _, _, hdt⟩ := he₁.par hS h.phys
  have key := (sym_flip h he₁ hk hk1 hv).evo hdt (F := fun r => if r then f₂.n else f₁.n) (Q := fun r => if r then p₂.n else p₁.n)
    (fun r => by cases r <;> simp [hf₁.1, hf₂.1, ht]) (fun r => by cases r <;> simp [hp₁.1, hp₂.1, ht])
    (by simpa [ht] using hF) (by simpa [ht] using hQ) N
    (fun r _ j hj => by
      cases r
      · simpa using hfin₁.evoP hS he₁ hf₁ hp₁ j hj
      · have := hfin₂.evoP hS he₂ hf₂ hp₂ j hj
        rw [hev j] at this
        simpa using this)
  rw [a5, a6, b5, b6, hev]
  simp only [ht, if_true, Bool.false_eq_true, if_false] at key
  exact fun i hi => ⟨key.1 i hi, key.2 i hi⟩

/-! ## C48 -/

theorem invR_nonneg {L R : ℝ} (hL : 0 < L) (h0 : 0 < R) (h1 : R ≤ L) : ∃ u : ℝ, 0 ≤ u ∧ invR (fin L) (fin L) (fin R) = fin u := by
  by_cases h2 : |R - L| < 1 / 10 ^ 16
  · refine ⟨0, le_rfl, ?_⟩
    unfold invR
    simp only [fin_sub, fin_fabs, fin_tenth, fin_lt]
    rw [if_pos h2]
    simp
  by_cases h3 : 1 / 10 ^ 16 < |R - L|
  · have h4 : R < L := by
      rcases h1.lt_or_eq with h | h
      · exact h
      · rw [h, sub_self, abs_zero] at h3
        exact absurd h3 (by norm_num)
    have h5 : 1 / 10 ^ 16 < L - R := by rwa [abs_sub_comm, abs_of_pos (by linarith)] at h3
    refine ⟨_, ?_, invR_eq hL h0 h4 h5⟩
    have : 0 < 1 - R / L := by rw [sub_pos, div_lt_one hL]; exact h4
    unfold physR
    positivity
  · refine ⟨1 / 10 ^ 12, by positivity, ?_⟩
    unfold invR Grid.R_to_r
    simp only [fin_sub, fin_fabs, fin_tenth, fin_lt]
    rw [if_neg h2, if_neg h3, fin_lit, fin_ofNat_one]
    push_cast
    rw [fin_div _ _ (by positivity)]

theorem radPt_mem {c : Bool} {n : ℕ} {lo up : ℝ} (hn : 2 ≤ n) (h : lo ≤ up) {ix : ℕ} (hx : ix < n) :
    lo ≤ radPt c n lo up ix ∧ radPt c n lo up ix ≤ up := by
  unfold radPt
  cases c
  · simp only [Bool.false_eq_true, if_false]
    have h1 : (0:ℝ) < (n:ℝ) - 1 := by
      have : (2:ℝ) ≤ n := by exact_mod_cast hn
      linarith
    have h2 : (ix:ℝ) ≤ (n:ℝ) - 1 := by
      have : ((ix + 1 : ℕ):ℝ) ≤ n := by exact_mod_cast hx
      push_cast at this
      linarith
    have h3 : (ix:ℝ) * ((up - lo) / ((n:ℝ) - 1)) = (up - lo) * (ix / ((n:ℝ) - 1)) := by ring
    have h4 : (ix:ℝ) / ((n:ℝ) - 1) ≤ 1 := (div_le_one h1).mpr h2
    have h5 : 0 ≤ (ix:ℝ) / ((n:ℝ) - 1) := by positivity
    rw [h3]
    constructor <;> nlinarith
  · simp only [if_true]
    unfold chebPt
    have h1 := Real.neg_one_le_cos (Real.pi * ix / ((n:ℝ) - 1))
    have h2 := Real.cos_le_one (Real.pi * ix / ((n:ℝ) - 1))
    constructor <;> nlinarith

/-- on or outside the horizon all coefficients are finite -/
theorem Exact.coef_fin (h : Exact E P g q x A) (he : Eom.Of g P e) (ho : q.Ok) (h0 : 0 < q.lo) (h1 : q.lo < q.up) (h2 : q.up ≤ q.L)
    {i : ℕ} (hi : i < g.d.total) : ∃ c : Coef ℝ, gv e.coef i = c.map fin := by
  obtain ⟨k1, k2⟩ := g.d.dec3 hi
  have e1 := h.nx
  have e2 := h.nlat
  have e3 := h.nphi
  have hx : g.d.dX i < P.nx := by rw [← e1]; exact k1.1
  have ht : g.d.dT i < P.nlat := by rw [← e2]; exact k1.2.1
  have hp : g.d.dP i < P.nphi := by rw [← e3]; exact k1.2.2
  have hc := he.coef_at h.setup hx ht hp (h.setup.coords h.phys h.env hx ht hp)
  obtain ⟨m1, m2⟩ := radPt_mem (c := E.useCheb) h.setup.sizes.two.1 h1.le hx
  obtain ⟨u, hu, hv⟩ := invR_nonneg (R := radPt E.useCheb P.nx q.lo q.up (g.d.dX i)) ho.L_pos (by linarith) (by linarith)
  dsimp only at hc
  rw [h.phys.M, h.phys.a, h.phys.L, hv, coefOf_eq ho.M_pos ho.spin ho.noRound hu, coefR_eq_map] at hc
  refine ⟨coefU q.M q.a (Real.arccos (x (g.d.dT i))) u, ?_⟩
  rw [← hc]
  unfold Dims.at3
  rw [h.setup.wf.ok.indx3 k1, k2]

theorem lin_zero {n : ℕ} {T : List CR → List CR} {D : (ℕ → ℝ) → ℕ → ℝ} (a : ActsF n T D) (b : LinF n D) {v : List CR}
    (hv : IsF n v fun _ => 0) : IsF n (T v) fun _ => 0 := by
  refine (a v _ hv).congr fun i hi => ?_
  have h2 := b 0 0 (fun _ => 0) (fun _ => 0) i hi
  simpa using h2

section vacuum
variable (h : Exact E P g q x A) (he : Eom.Of g P e) (ho : q.Ok) (h0 : 0 < q.lo) (h1 : q.lo < q.up)
  (h2 : q.up ≤ q.L) (hk : q.k0 + q.km1 ≠ 0)
include h he ho h0 h1 h2 hk

theorem vac_rhs {F Q : List CR} (hF : IsF g.d.total F fun _ => 0) (hQ : IsF g.d.total Q fun _ => 0) : IsF g.d.total (e.rhs g F Q) fun _ => 0 := by
  obtain ⟨pr, p2r, ph, lap, fl, o⟩ := h.ops
  obtain ⟨X, x1, _, x3⟩ := h.opX
  refine ⟨by simp, fun i hi => ?_⟩
  have kin0 : q.kin 0 ≠ 0 := by
    unfold Phys.kin Kerr.kin
    simpa [add_comm] using hk
  have hX : gv (g.psphXP F) i = fin 0 := by
    rw [(x1 _ _ hF).2 i hi]
    have := x3 0 (fun _ => 0) i hi
    simp only [mul_zero] at this
    rw [this]
    simp
  obtain ⟨c, hc⟩ := h.coef_fin he ho h0 h1 h2 hi
  have e4 := lin_zero o.ph.1 o.ph.2.1 hF
  have := he.pk_real h.setup h.phys c (j := ⟨0, 0, 0, 0, 0, 0, 0, 0, 0, 0⟩) (by norm_num) kin0
  unfold Eom.rhs
  rw [gv_tab hi, hc, hF.2 i hi, hQ.2 i hi, (lin_zero o.pr.1 o.pr.2.1 hF).2 i hi, (lin_zero o.pr.1 o.pr.2.1 hQ).2 i hi,
    (lin_zero o.p2r.1 o.p2r.2.1 hF).2 i hi, e4.2 i hi, (lin_zero o.pr.1 o.pr.2.1 e4).2 i hi, hX, (lin_zero o.lap.1 o.lap.2.1 hF).2 i hi, this, fin_inj]
  have hV : deriv q.pot 0 = 0 := by rw [show deriv q.pot 0 = _ from (pot_deriv _ _ _ 0).deriv]; ring
  unfold pkR
  dsimp only
  rw [hV]
  ring

theorem vac_sym : Sym e g (ι := Unit) (fun _ => False) fun v => IsF g.d.total (v ()) fun _ => 0 := by
  obtain ⟨pr, p2r, ph, lap, fl, o⟩ := h.ops
  refine ⟨?_, ?_, ?_⟩
  · intro u w c a b
    refine ⟨by simp, fun i hi => ?_⟩
    rw [Eom.ax_gv hi, a.2 i hi, b.2 i hi, fin_mul, fin_add]
    simp
  · intro u _ _ a
    exact lin_zero o.fl.1 o.fl.2.1 a
  · intro u w _ _ _ _ _ a b
    exact vac_rhs h he ho h0 h1 h2 hk a b

theorem vac_evo {F Q : List CR} (hF : IsF g.d.total F fun _ => 0) (hQ : IsF g.d.total Q fun _ => 0) (N : ℕ) :
    IsF g.d.total (evoP e g F Q N).1 (fun _ => 0) ∧ IsF g.d.total (evoP e g F Q N).2 fun _ => 0 := by
  obtain ⟨_, _, _, _, _, _, _, hdt⟩ := he.par h.setup h.phys
  exact (vac_sym h he ho h0 h1 h2 hk).evo hdt (F := fun _ => F) (Q := fun _ => Q) (fun _ => hF.1) (fun _ => hQ.1) hF hQ N
    (fun r hr => hr.elim)

/-- C48: from a state that is zero everywhere, every number of time steps leads to a state that is zero everywhere, whatever the
scratch arrays and uninitialised memory contain. -/
theorem C48_vacuum_stays (J : ℕ → Junk (Cx CR)) {f p : Field CR} (hf : f.Sized (P.nx * P.nlat * P.nphi))
    (hp : p.Sized (P.nx * P.nlat * P.nphi)) (hF : ∀ i, i < P.nx * P.nlat * P.nphi → gv f.n i = fin 0)
    (hQ : ∀ i, i < P.nx * P.nlat * P.nphi → gv p.n i = fin 0) (N : ℕ) :
    ∃ a F Q, evolve g J e f p N = .ok (a, F, Q) ∧ F.Sized (P.nx * P.nlat * P.nphi) ∧ Q.Sized (P.nx * P.nlat * P.nphi) ∧
      (∀ i, i < P.nx * P.nlat * P.nphi → gv F.n i = fin 0) ∧ (∀ i, i < P.nx * P.nlat * P.nphi → gv Q.n i = fin 0) := by
  have ht := h.setup.total
  obtain ⟨s, F, Q, a1, _, a3, a4, a5, a6⟩ := evolve_eq h.setup he J hf hp N
  obtain ⟨b1, b2⟩ := vac_evo h he ho h0 h1 h2 hk (F := f.n) (Q := p.n) ⟨hf.1.trans ht.symm, by rwa [ht]⟩ ⟨hp.1.trans ht.symm, by rwa [ht]⟩ N
  rw [← a5] at b1
  rw [← a6] at b2
  exact ⟨_, F, Q, a1, a3, a4, by rw [← ht]; exact b1.2, by rw [← ht]; exact b2.2⟩

omit hk in
/-- C48: the energy density of the zero state is zero. -/
theorem C48_vacuum_density (J : Junk (Cx CR)) {F Q rho : List CR} (hF : F.length = P.nx * P.nlat * P.nphi)
    (hQ : Q.length = P.nx * P.nlat * P.nphi) (hr : rho.length = P.nx * P.nlat * P.nphi)
    (hF0 : ∀ i, i < P.nx * P.nlat * P.nphi → gv F i = fin 0) (hQ0 : ∀ i, i < P.nx * P.nlat * P.nphi → gv Q i = fin 0) :
    ∃ e' rho', e.set_rho g J F Q rho = .ok (e', rho') ∧ rho'.length = P.nx * P.nlat * P.nphi ∧
      ∀ i, i < P.nx * P.nlat * P.nphi → gv rho' i = fin 0 := by
  have ht := h.setup.total
  rw [← ht] at hF hQ hr hF0 hQ0 ⊢
  refine ⟨_, _, Eom.set_rho_eq h.setup.wf (he.wf h.setup) J hF hQ hr, by simp, fun i hi => ?_⟩
  obtain ⟨pr, p2r, ph, lap, fl, o⟩ := h.ops
  obtain ⟨X, x1, _, x3⟩ := h.opX
  have hFF : IsF g.d.total F fun _ => 0 := ⟨hF, hF0⟩
  have hX : gv (g.psphXP F) i = fin 0 := by
    rw [(x1 _ _ hFF).2 i hi]
    have := x3 0 (fun _ => 0) i hi
    simp only [mul_zero] at this
    rw [this]
    simp
  obtain ⟨c, hc⟩ := h.coef_fin he ho h0 h1 h2 hi
  have := he.rho_real h.setup h.phys c (j := ⟨0, 0, 0, 0, 0, 0, 0, 0, 0, 0⟩) (by norm_num)
  unfold Eom.rhoP
  rw [gv_tab hi, hc, hF0 i hi, hQ0 i hi, (lin_zero o.pr.1 o.pr.2.1 hFF).2 i hi, (lin_zero o.ph.1 o.ph.2.1 hFF).2 i hi, hX, this, fin_inj]
  unfold rhoR Phys.pot Kerr.pot
  dsimp only
  ring

end vacuum

/-! ## C49 -/

/-- the third list is `a` times the first plus `b` times the second -/
theorem lin_comb {n : ℕ} {T : List CR → List CR} {D : (ℕ → ℝ) → ℕ → ℝ} (hT : ActsF n T D) (hD : LinF n D) {a b : ℝ} {z : List CR} {y w : ℕ → ℝ}
    (hz : IsF n z fun i => a * y i + b * w i) : IsF n (T z) fun i => a * D y i + b * D w i :=
  (hT z _ hz).congr fun i hi => hD a b y w i hi

theorem sym_comb (h : Exact E P g q x A) (he : Eom.Of g P e) (a b : ℝ) (h1 : q.km1 = 0) (h2 : q.k1 = 0) (h3 : q.k2 = 0)
    (h4 : q.V3 = 0) (h5 : q.V4 = 0) :
    Sym e g (ι := Fin 3) (fun _ => True) fun v => ∀ i, i < g.d.total → gv (v 2) i = fin a * gv (v 0) i + fin b * gv (v 1) i := by
  obtain ⟨pr, p2r, ph, lap, fl, o⟩ := h.ops
  obtain ⟨q1, q2, q3, q4, q5, q6, q7, _⟩ := he.par h.setup h.phys
  rw [h1] at q1
  rw [h2] at q3
  rw [h3] at q4
  rw [h4] at q6
  rw [h5] at q7
  have toF : ∀ u : Fin 3 → List CR, (∀ r, (u r).length = g.d.total) → (∀ r, True → AllFin (u r)) →
      (∀ i, i < g.d.total → gv (u 2) i = fin a * gv (u 0) i + fin b * gv (u 1) i) →
      ∃ y z, IsF g.d.total (u 0) y ∧ IsF g.d.total (u 1) z ∧ IsF g.d.total (u 2) fun i => a * y i + b * z i := by
    intro u hl hf hr
    obtain ⟨y, hy⟩ := (hf 0 trivial).isF (hl 0)
    obtain ⟨z, hz⟩ := (hf 1 trivial).isF (hl 1)
    exact ⟨y, z, hy, hz, hl 2, fun i hi => by rw [hr i hi, hy.2 i hi, hz.2 i hi, fin_mul, fin_mul, fin_add]⟩
  refine ⟨?_, ?_, ?_⟩
  · intro u w c h1 h2 i hi
    rw [Eom.ax_gv hi, Eom.ax_gv hi, Eom.ax_gv hi, h1 i hi, h2 i hi]
    cases gv (u 0) i <;> cases gv (u 1) i <;> cases gv (w 0) i <;> cases gv (w 1) i <;> try rfl
    simp only [fin_mul, fin_add, fin_inj]
    ring
  · intro u hl hf h1 i hi
    obtain ⟨y, z, hy, hz, hs⟩ := toF u hl hf h1
    rw [(o.fl.1 _ _ hy).2 i hi, (o.fl.1 _ _ hz).2 i hi, (lin_comb o.fl.1 o.fl.2.1 hs).2 i hi, fin_mul, fin_mul, fin_add]
  · intro u w hl hl' hf hf' hr g1 g2 i hi
    obtain ⟨y, z, hy, hz, hs⟩ := toF u hl hf g1
    obtain ⟨y', z', hy', hz', hs'⟩ := toF w hl' hf' g2
    have e1 := lin_comb o.pr.1 o.pr.2.1 hs
    have e2 := lin_comb o.pr.1 o.pr.2.1 hs'
    have e3 := lin_comb o.p2r.1 o.p2r.2.1 hs
    have e4 := lin_comb o.ph.1 o.ph.2.1 hs
    have e5 := lin_comb o.pr.1 o.pr.2.1 e4
    have e7 := lin_comb o.lap.1 o.lap.2.1 hs
    -- one run
    have run : ∀ {F Q : List CR} {yf yp y1 y2 y3 y4 y5 y7 : ℝ}, AllFin (e.rhs g F Q) → gv F i = fin yf → gv Q i = fin yp →
        gv (g.prP F) i = fin y1 → gv (g.prP Q) i = fin y2 → gv (g.p2rP F) i = fin y3 → gv (g.pphiP F) i = fin y4 →
        gv (g.prP (g.pphiP F)) i = fin y5 → gv (g.plapP F) i = fin y7 → ∃ cc : Coef ℝ,
        ((gv e.coef i).p_p = fin cc.p_p ∧ (gv e.coef i).p_dr_f = fin cc.p_dr_f ∧ (gv e.coef i).p_dr_p = fin cc.p_dr_p ∧
          (gv e.coef i).p_dr_dr_f = fin cc.p_dr_dr_f ∧ (gv e.coef i).p_dphi_dr_f = fin cc.p_dphi_dr_f ∧ (gv e.coef i).p_lap_f = fin cc.p_lap_f ∧
          (gv e.coef i).pre = fin cc.pre) ∧
        gv (e.rhs g F Q) i = fin (cc.p_p * yp + cc.p_dr_f * y1 + cc.p_dr_p * y2 + cc.p_dr_dr_f * y3 + cc.p_dphi_dr_f * y5 + cc.p_lap_f * y7
          - cc.pre * (1 / q.k0 * (q.V2 * yf))) := by
      intro F Q yf yp y1 y2 y3 y4 y5 y7 hfin a1 a2 a3 a4 a5 a6 a7 a9
      obtain ⟨rr, hrr⟩ := hfin.isF (n := g.d.total) (by simp)
      have kf := hrr.2 i hi
      have kf0 := kf
      unfold Eom.rhs at kf
      rw [gv_tab hi] at kf
      obtain ⟨cc, kp, ik, vp, f', p', r', vr', rr', ph', rph', X', lap', ⟨c1, c2, c3, c4, c5, c6, _, _, _, _, _, c12⟩, ⟨m1, m2, m3⟩,
        ⟨v1, v2, v3, v4, v5, v6, v7, v8, v9⟩, kf⟩ := pk_fin kf
      refine ⟨cc, ⟨c1, c2, c3, c4, c5, c6, c12⟩, ?_⟩
      rw [a2, fin_inj] at v1
      rw [a3, fin_inj] at v2
      rw [a4, fin_inj] at v3
      rw [a5, fin_inj] at v4
      rw [a6, fin_inj] at v5
      rw [a7, fin_inj] at v6
      rw [a9, fin_inj] at v8
      rw [a1, fin_inj] at v9
      rw [kf0, kf, fin_inj]
      rw [a1] at m1 m2 m3
      have hne : yf + 1 ≠ 0 := by
        unfold Eom.inverseK at m2
        obtain ⟨_, _, _, m2, _, _⟩ := div_fin m2
        obtain ⟨_, _, m2, _, _⟩ := add_fin m2
        obtain ⟨_, _, m2, _, _⟩ := add_fin m2
        obtain ⟨_, _, _, m2, _⟩ := add_fin m2
        obtain ⟨_, b, _, m2, hb, _⟩ := div_fin m2
        rw [fin_ofNat_one, fin_add, fin_inj] at m2
        rw [m2]; exact hb
      have hik : ik = 1 / q.k0 := by
        unfold Eom.inverseK at m2
        rw [q1, q2, q3, q4] at m2
        simp only [fin_ofNat_one, fin_ofNat', fin_add, fin_div _ _ hne, fin_mul, fin_pown, fin_div _ _ (two_ne_zero (α := ℝ))] at m2
        rw [show q.k0 + 0 / (yf + 1) + 0 * yf + 0 / 2 * yf ^ 2 = q.k0 by simp] at m2
        obtain ⟨_, b, n1, n2, _, n3⟩ := div_fin m2
        rw [fin_inj] at n1 n2
        rw [n3, ← n1, ← n2]
      have hkp : kp = 0 := by
        unfold Eom.kprime at m1
        rw [q1, q3, q4] at m1
        simp only [fin_ofNat_one, fin_neg, fin_add, fin_pown, fin_div _ _ (pow_ne_zero 2 hne), fin_mul, fin_inj] at m1
        rw [← m1]
        simp
      have hvp : vp = 1 / q.k0 * (q.V2 * yf) := by
        unfold Eom.vprime at m3
        rw [m2, q5, q6, q7] at m3
        simp only [fin_ofNat', fin_mul, fin_pown, fin_add, fin_div _ _ (two_ne_zero (α := ℝ)), fin_div _ _ (show (6:ℝ) ≠ 0 by norm_num), fin_inj] at m3
        rw [← m3, hik]
        ring
      rw [hkp, hvp, ← v1, ← v2, ← v3, ← v4, ← v6, ← v8]
      ring
    obtain ⟨c, ⟨c1, c2, c3, c4, c5, c6, c12⟩, r0⟩ := run (hr 0 trivial) (hy.2 i hi) (hy'.2 i hi) ((o.pr.1 _ _ hy).2 i hi) ((o.pr.1 _ _ hy').2 i hi)
      ((o.p2r.1 _ _ hy).2 i hi) ((o.ph.1 _ _ hy).2 i hi) ((o.pr.1 _ _ (o.ph.1 _ _ hy)).2 i hi) ((o.lap.1 _ _ hy).2 i hi)
    obtain ⟨d, ⟨d1, d2, d3, d4, d5, d6, d12⟩, r1⟩ := run (hr 1 trivial) (hz.2 i hi) (hz'.2 i hi) ((o.pr.1 _ _ hz).2 i hi) ((o.pr.1 _ _ hz').2 i hi)
      ((o.p2r.1 _ _ hz).2 i hi) ((o.ph.1 _ _ hz).2 i hi) ((o.pr.1 _ _ (o.ph.1 _ _ hz)).2 i hi) ((o.lap.1 _ _ hz).2 i hi)
    obtain ⟨k, ⟨k1, k2, k3, k4, k5, k6, k12⟩, r2⟩ := run (hr 2 trivial) (hs.2 i hi) (hs'.2 i hi) (e1.2 i hi) (e2.2 i hi)
      (e3.2 i hi) (e4.2 i hi) (e5.2 i hi) (e7.2 i hi)
    rw [c1, fin_inj] at d1 k1
    rw [c2, fin_inj] at d2 k2
    rw [c3, fin_inj] at d3 k3
    rw [c4, fin_inj] at d4 k4
    rw [c5, fin_inj] at d5 k5
    rw [c6, fin_inj] at d6 k6
    rw [c12, fin_inj] at d12 k12
    rw [r0, r1, r2, fin_mul, fin_mul, fin_add, fin_inj, ← d1, ← d2, ← d3, ← d4, ← d5, ← d6, ← d12, ← k1, ← k2, ← k3, ← k4, ← k5, ← k6, ← k12]
    ring

/-- C49: with `km1 = k1 = k2 = 0` and `V3 = V4 = 0`, if the third initial state is `a` times the first plus `b` times the second, then
so are the states after any number `N` of steps, as long as the three evolutions stay finite; scratch arrays and uninitialised memory
are arbitrary in each run. -/
theorem C49_superposition (h : Exact E P g q x A) (a b : ℝ) (hk : q.km1 = 0) (hk1 : q.k1 = 0) (hk2 : q.k2 = 0) (hv : q.V3 = 0)
    (hv4 : q.V4 = 0) {e₁ e₂ e₃ : Eom CR} (he₁ : Eom.Of g P e₁) (he₂ : Eom.Of g P e₂) (he₃ : Eom.Of g P e₃) (J₁ J₂ J₃ : ℕ → Junk (Cx CR))
    {f₁ p₁ f₂ p₂ f₃ p₃ : Field CR} (hf₁ : f₁.Sized (P.nx * P.nlat * P.nphi)) (hp₁ : p₁.Sized (P.nx * P.nlat * P.nphi))
    (hf₂ : f₂.Sized (P.nx * P.nlat * P.nphi)) (hp₂ : p₂.Sized (P.nx * P.nlat * P.nphi))
    (hf₃ : f₃.Sized (P.nx * P.nlat * P.nphi)) (hp₃ : p₃.Sized (P.nx * P.nlat * P.nphi)) (N : ℕ)
    (hF : Superposed a b f₁.n f₂.n f₃.n) (hQ : Superposed a b p₁.n p₂.n p₃.n)
    (hfin₁ : StaysFinite g e₁ f₁ p₁ N) (hfin₂ : StaysFinite g e₂ f₂ p₂ N) (hfin₃ : StaysFinite g e₃ f₃ p₃ N) :
    ∃ a₁ a₂ a₃ F₁ F₂ F₃ Q₁ Q₂ Q₃, evolve g J₁ e₁ f₁ p₁ N = .ok (a₁, F₁, Q₁) ∧ evolve g J₂ e₂ f₂ p₂ N = .ok (a₂, F₂, Q₂) ∧
      evolve g J₃ e₃ f₃ p₃ N = .ok (a₃, F₃, Q₃) ∧ F₃.n.length = P.nx * P.nlat * P.nphi ∧ Q₃.n.length = P.nx * P.nlat * P.nphi ∧
      Superposed a b F₁.n F₂.n F₃.n ∧ Superposed a b Q₁.n Q₂.n Q₃.n := by
  have hS := h.setup
  have ht := hS.total
  have hev : ∀ {e' : Eom CR}, Eom.Of g P e' → ∀ F Q N, evoP e' g F Q N = evoP e₁ g F Q N := by
    intro e' he' F Q N
    obtain ⟨s1, _, rfl⟩ := he₁.eq hS
    obtain ⟨s2, _, rfl⟩ := he'.eq hS
    induction N with
    | zero => rfl
    | succ N ih => unfold evoP; rw [ih]; rfl
  obtain ⟨s1, F₁, Q₁, a1, _, a3, a4, a5, a6⟩ := evolve_eq hS he₁ J₁ hf₁ hp₁ N
  obtain ⟨s2, F₂, Q₂, b1, _, b3, b4, b5, b6⟩ := evolve_eq hS he₂ J₂ hf₂ hp₂ N
  obtain ⟨s3, F₃, Q₃, c1, _, c3, c4, c5, c6⟩ := evolve_eq hS he₃ J₃ hf₃ hp₃ N
  refine ⟨_, _, _, F₁, F₂, F₃, Q₁, Q₂, Q₃, a1, b1, c1, c3.1, c4.1, ?_⟩
  obtain ⟨_, _, _, _, _, _, _, hdt⟩ := he₁.par hS h.phys
  have key := (sym_comb h he₁ a b hk hk1 hk2 hv hv4).evo hdt (F := ![f₁.n, f₂.n, f₃.n]) (Q := ![p₁.n, p₂.n, p₃.n])
    (fun r => by fin_cases r <;> simp [hf₁.1, hf₂.1, hf₃.1, ht]) (fun r => by fin_cases r <;> simp [hp₁.1, hp₂.1, hp₃.1, ht])
    (by simpa [ht, Superposed, hf₃.1] using hF) (by simpa [ht, Superposed, hp₃.1] using hQ) N
    (fun r _ j hj => by
      fin_cases r
      · simpa using hfin₁.evoP hS he₁ hf₁ hp₁ j hj
      · have := hfin₂.evoP hS he₂ hf₂ hp₂ j hj
        rw [hev he₂] at this
        simpa using this
      · have := hfin₃.evoP hS he₃ hf₃ hp₃ j hj
        rw [hev he₃] at this
        simpa using this)
  unfold Superposed
  rw [c3.1, c4.1, a5, a6, b5, b6, c5, c6, hev he₂, hev he₃, ← ht]
  simpa using key

/-! ## C74, C75: where the evolution stays finite -/

section finite
variable (h : Exact E P g q x A) (he : Eom.Of g P e) (ho : q.Ok) (h0 : 0 < q.lo) (h1 : q.lo < q.up) (h2 : q.up ≤ q.L)
include h he ho h0 h1 h2

/-- the right-hand side on finite data -/
theorem rhs_real {F Q : List CR} {y z : ℕ → ℝ} (hF : IsF g.d.total F y) (hQ : IsF g.d.total Q z) {i : ℕ} (hi : i < g.d.total) :
    ((∃ r : ℝ, gv (e.rhs g F Q) i = fin r) ↔ y i ≠ -1 ∧ q.kin (y i) ≠ 0) := by
  obtain ⟨pr, p2r, ph, lap, fl, o⟩ := h.ops
  obtain ⟨X, x1, _, _⟩ := h.opX
  obtain ⟨c, hc⟩ := h.coef_fin he ho h0 h1 h2 hi
  constructor
  · rintro ⟨r, hr⟩
    unfold Eom.rhs at hr
    rw [gv_tab hi] at hr
    obtain ⟨cc, kp, ik, vp, f', p', r', vr', rr', ph', rph', X', lap', _, ⟨m1, m2, m3⟩, _, _⟩ := pk_fin hr
    rw [hF.2 i hi] at m2
    obtain ⟨q1, q2, q3, q4, _⟩ := he.par h.setup h.phys
    have m2' := m2
    have hne : y i ≠ -1 := by
      unfold Eom.inverseK at m2
      obtain ⟨_, _, _, m2, _, _⟩ := div_fin m2
      obtain ⟨_, _, m2, _, _⟩ := add_fin m2
      obtain ⟨_, _, m2, _, _⟩ := add_fin m2
      obtain ⟨_, _, _, m2, _⟩ := add_fin m2
      obtain ⟨_, b, _, m2, hb, _⟩ := div_fin m2
      rw [fin_ofNat_one, fin_add, fin_inj] at m2
      intro hy
      apply hb
      rw [← m2, hy]
      norm_num
    refine ⟨hne, fun hk => ?_⟩
    have hv := he.kVal h.setup h.phys hne
    unfold Eom.kVal at hv
    unfold Eom.inverseK at m2'
    rw [hv, hk] at m2'
    obtain ⟨_, b, _, m2, hb, _⟩ := div_fin m2'
    rw [fin_inj] at m2
    exact hb m2.symm
  · rintro ⟨a, b⟩
    refine ⟨pkR q c ⟨y i, z i, pr y i, 0, pr z i, p2r y i, ph y i, pr (ph y) i, lap y i, X y i⟩, ?_⟩
    unfold Eom.rhs
    rw [gv_tab hi, hc, hF.2 i hi, hQ.2 i hi, (o.pr.1 _ _ hF).2 i hi, (o.pr.1 _ _ hQ).2 i hi, (o.p2r.1 _ _ hF).2 i hi, (o.ph.1 _ _ hF).2 i hi,
      (o.pr.1 _ _ (o.ph.1 _ _ hF)).2 i hi, (x1 _ _ hF).2 i hi, (o.lap.1 _ _ hF).2 i hi]
    exact he.pk_real h.setup h.phys c (j := ⟨y i, z i, pr y i, 0, pr z i, p2r y i, ph y i, pr (ph y) i, lap y i, X y i⟩) a b

/-- C75: on a finite state `set_k` computes a finite time derivative at a grid point exactly when the field value there is neither the
pole `-1` nor a zero of the kinetic prefactor. -/
theorem C75_finite_iff (J : Junk (Cx CR)) {f p fk pk : List CR} (hf : f.length = P.nx * P.nlat * P.nphi)
    (hp : p.length = P.nx * P.nlat * P.nphi) (hfk : fk.length = P.nx * P.nlat * P.nphi) (hpk : pk.length = P.nx * P.nlat * P.nphi)
    (hf' : AllFin f) (hp' : AllFin p) : ∃ e' pk', e.set_k g J f p fk pk = .ok (e', p, pk') ∧ pk'.length = P.nx * P.nlat * P.nphi ∧
      ∀ i, i < P.nx * P.nlat * P.nphi → ∀ y : ℝ, gv f i = fin y → ((∃ r : ℝ, gv pk' i = fin r) ↔ y ≠ -1 ∧ q.kin y ≠ 0) := by
  have ht := h.setup.total
  rw [← ht] at hf hp hfk hpk ⊢
  obtain ⟨u, hu⟩ := hf'.isF hf
  obtain ⟨w, hw⟩ := hp'.isF hp
  refine ⟨_, _, Eom.set_k_eq h.setup.wf (he.wf h.setup) J hf hp hfk hpk, by simp, fun i hi y hy => ?_⟩
  have := rhs_real h he ho h0 h1 h2 hu hw hi
  rw [hu.2 i hi, fin_inj] at hy
  rw [hy] at this
  exact this

end finite

theorem exists_bound (n : ℕ) (y : ℕ → ℝ) : ∃ B : ℝ, 0 ≤ B ∧ ∀ i, i < n → |y i| ≤ B := by
  refine ⟨∑ i ∈ Finset.range n, |y i|, Finset.sum_nonneg fun i _ => abs_nonneg _, fun i hi => ?_⟩
  exact Finset.single_le_sum (f := fun i => |y i|) (fun i _ => abs_nonneg _) (Finset.mem_range.mpr hi)

theorem lin_smul {n : ℕ} {T : List CR → List CR} {D : (ℕ → ℝ) → ℕ → ℝ} (hT : ActsF n T D) (hD : LinF n D) {a : ℝ} {z : List CR} {y : ℕ → ℝ}
    (hz : IsF n z fun i => a * y i) : IsF n (T z) fun i => a * D y i := by
  refine (hT z _ hz).congr fun i hi => ?_
  have := hD a 0 y y i hi
  simpa using this

theorem ax_smul {n : ℕ} {u k : List CR} {c a : ℝ} {y w : ℕ → ℝ} (hu : IsF n u fun i => a * y i) (hk : IsF n k fun i => a * w i) :
    IsF n (Eom.ax n u (fin c) k) fun i => a * (y i + c * w i) := by
  refine ⟨by simp, fun i hi => ?_⟩
  rw [Eom.ax_gv hi, hu.2 i hi, hk.2 i hi, fin_mul, fin_add, fin_inj]
  ring

section small
variable (h : Exact E P g q x A) (he : Eom.Of g P e) (ho : q.Ok) (h0 : 0 < q.lo) (h1 : q.lo < q.up) (h2 : q.up ≤ q.L)
  (hk0 : q.k0 ≠ 0) (hkm : q.km1 = 0) (hk1 : q.k1 = 0) (hk2 : q.k2 = 0) (hv3 : q.V3 = 0) (hv4 : q.V4 = 0)
include h he ho h0 h1 h2 hk0 hkm hk1 hk2 hv3 hv4

/-- the right-hand side is linear on states whose field is smaller than 1 -/
theorem rhs_small : ∃ R : (ℕ → ℝ) → (ℕ → ℝ) → ℕ → ℝ, ∀ (y z : ℕ → ℝ) (B a : ℝ) (F Q : List CR), (∀ i, i < g.d.total → |y i| ≤ B) →
    |a| * B < 1 → IsF g.d.total F (fun i => a * y i) → IsF g.d.total Q (fun i => a * z i) →
    IsF g.d.total (e.rhs g F Q) fun i => a * R y z i := by
  obtain ⟨pr, p2r, ph, lap, fl, o⟩ := h.ops
  obtain ⟨X, x1, _, _⟩ := h.opX
  have hc := fun i hi => h.coef_fin he ho h0 h1 h2 (i := i) hi
  haveI : Nonempty (Coef ℝ) := ⟨⟨0, 0, 0, 0, 0, 0, 0, 0, 0, 0, 0, 0, 0, 0, 0, 0, 0⟩⟩
  choose! c hc using hc
  refine ⟨fun y z i => (c i).p_p * z i + (c i).p_dr_f * pr y i + (c i).p_dr_p * pr z i + (c i).p_dr_dr_f * p2r y i +
    (c i).p_dphi_dr_f * pr (ph y) i + (c i).p_lap_f * lap y i - (c i).pre * (1 / q.k0 * (q.V2 * y i)), ?_⟩
  intro y z B a F Q hB ha hF hQ
  refine ⟨by simp, fun i hi => ?_⟩
  have hne : a * y i ≠ -1 := by
    intro hh
    have : |a * y i| = 1 := by rw [hh]; simp
    rw [abs_mul] at this
    have := mul_le_mul_of_nonneg_left (hB i hi) (abs_nonneg a)
    linarith
  have hkin : q.kin = fun _ => q.k0 := by
    funext t
    unfold Phys.kin Kerr.kin
    rw [hkm, hk1, hk2]
    simp
  have hpot : deriv q.pot (a * y i) = q.V2 * (a * y i) := by
    rw [show deriv q.pot (a * y i) = _ from (pot_deriv _ _ _ _).deriv, hv3, hv4]
    ring
  have e4 := lin_smul o.ph.1 o.ph.2.1 hF
  unfold Eom.rhs
  rw [gv_tab hi, hc i hi, hF.2 i hi, hQ.2 i hi, (lin_smul o.pr.1 o.pr.2.1 hF).2 i hi, (lin_smul o.pr.1 o.pr.2.1 hQ).2 i hi,
    (lin_smul o.p2r.1 o.p2r.2.1 hF).2 i hi, e4.2 i hi,
    (lin_smul o.pr.1 o.pr.2.1 e4).2 i hi, (x1 _ _ hF).2 i hi, (lin_smul o.lap.1 o.lap.2.1 hF).2 i hi]
  have hk : q.kin (a * y i) ≠ 0 := by rw [hkin]; exact hk0
  have := he.pk_real h.setup h.phys (c i) (j := ⟨a * y i, a * z i, a * pr y i, 0, a * pr z i, a * p2r y i, a * ph y i,
    a * pr (ph y) i, a * lap y i, X (fun i => a * y i) i⟩) hne hk
  rw [this, fin_inj]
  unfold pkR
  dsimp only
  rw [hpot, hkin]
  simp only [deriv_const]
  ring

theorem step_small (y z : ℕ → ℝ) : ∃ (B : ℝ) (y' z' : ℕ → ℝ), 0 ≤ B ∧ ∀ (a : ℝ) (F Q : List CR), |a| * B < 1 → IsF g.d.total F (fun i => a * y i) →
    IsF g.d.total Q (fun i => a * z i) →
    IsF g.d.total (e.stepF g (g.filtP F) (g.filtP Q)).1 (fun i => a * y' i) ∧ IsF g.d.total (e.stepF g (g.filtP F) (g.filtP Q)).2 fun i => a * z' i := by
  obtain ⟨pr, p2r, ph, lap, fl, o⟩ := h.ops
  obtain ⟨R, hR⟩ := rhs_small h he ho h0 h1 h2 hk0 hkm hk1 hk2 hv3 hv4
  obtain ⟨_, _, _, _, _, _, _, hdt⟩ := he.par h.setup h.phys
  have hc : (lit (1/2) * e.dt : CR) = fin (((1/2 : ℚ) : ℝ) * q.dt) := by rw [hdt, fin_lit, fin_mul]
  have h6 : (e.dt / 6 : CR) = fin (q.dt / 6) := by rw [hdt, fin_ofNat', fin_div _ _ (by norm_num)]
  have h3 : (e.dt / 3 : CR) = fin (q.dt / 3) := by rw [hdt, fin_ofNat', fin_div _ _ (by norm_num)]
  obtain ⟨τ, hτ⟩ : ∃ τ, τ = ((1/2 : ℚ) : ℝ) * q.dt := ⟨_, rfl⟩
  rw [← hτ] at hc
  obtain ⟨y1, hy1⟩ : ∃ y1, y1 = fl y := ⟨_, rfl⟩
  obtain ⟨z1, hz1⟩ : ∃ z1, z1 = fl z := ⟨_, rfl⟩
  obtain ⟨y2, hy2⟩ : ∃ y2, y2 = fun i => y1 i + τ * z1 i := ⟨_, rfl⟩
  obtain ⟨z2, hz2⟩ : ∃ z2, z2 = fun i => z1 i + τ * R y1 z1 i := ⟨_, rfl⟩
  obtain ⟨y3, hy3⟩ : ∃ y3, y3 = fun i => y1 i + τ * z2 i := ⟨_, rfl⟩
  obtain ⟨z3, hz3⟩ : ∃ z3, z3 = fun i => z1 i + τ * R y2 z2 i := ⟨_, rfl⟩
  obtain ⟨y4, hy4⟩ : ∃ y4, y4 = fun i => y1 i + q.dt * z3 i := ⟨_, rfl⟩
  obtain ⟨z4, hz4⟩ : ∃ z4, z4 = fun i => z1 i + q.dt * R y3 z3 i := ⟨_, rfl⟩
  obtain ⟨B1, p1, b1⟩ := exists_bound g.d.total y1
  obtain ⟨B2, p2, b2⟩ := exists_bound g.d.total y2
  obtain ⟨B3, p3, b3⟩ := exists_bound g.d.total y3
  obtain ⟨B4, p4, b4⟩ := exists_bound g.d.total y4
  refine ⟨B1 + B2 + B3 + B4, fun i => y1 i + q.dt / 6 * z1 i + q.dt / 3 * z2 i + q.dt / 3 * z3 i + q.dt / 6 * z4 i,
    fun i => z1 i + q.dt / 6 * R y1 z1 i + q.dt / 3 * R y2 z2 i + q.dt / 3 * R y3 z3 i + q.dt / 6 * R y4 z4 i, by linarith, ?_⟩
  intro a F Q ha hF hQ
  have hab : ∀ B', B' ≤ B1 + B2 + B3 + B4 → |a| * B' < 1 := fun B' hB => lt_of_le_of_lt (mul_le_mul_of_nonneg_left hB (abs_nonneg a)) ha
  have f1 := lin_smul o.fl.1 o.fl.2.1 hF
  have q1 := lin_smul o.fl.1 o.fl.2.1 hQ
  rw [← hy1] at f1
  rw [← hz1] at q1
  have r1 := hR y1 z1 B1 a _ _ b1 (hab _ (by linarith)) f1 q1
  have f2 : IsF g.d.total (e.L2 g (g.filtP F) (g.filtP Q)).1 fun i => a * y2 i := by
    unfold Eom.L2; rw [hc, hy2]; exact ax_smul f1 q1
  have q2 : IsF g.d.total (e.L2 g (g.filtP F) (g.filtP Q)).2 fun i => a * z2 i := by
    unfold Eom.L2; rw [hc, hz2]; exact ax_smul q1 r1
  have r2 := hR y2 z2 B2 a _ _ b2 (hab _ (by linarith)) f2 q2
  have f3 : IsF g.d.total (e.L3 g (g.filtP F) (g.filtP Q)).1 fun i => a * y3 i := by
    unfold Eom.L3; rw [hc, hy3]; exact ax_smul f1 q2
  have q3 : IsF g.d.total (e.L3 g (g.filtP F) (g.filtP Q)).2 fun i => a * z3 i := by
    unfold Eom.L3; rw [hc, hz3]; exact ax_smul q1 r2
  have r3 := hR y3 z3 B3 a _ _ b3 (hab _ (by linarith)) f3 q3
  have f4 : IsF g.d.total (e.L4 g (g.filtP F) (g.filtP Q)).1 fun i => a * y4 i := by
    unfold Eom.L4; rw [hdt, hy4]; exact ax_smul f1 q3
  have q4 : IsF g.d.total (e.L4 g (g.filtP F) (g.filtP Q)).2 fun i => a * z4 i := by
    unfold Eom.L4; rw [hdt, hz4]; exact ax_smul q1 r3
  have r4 := hR y4 z4 B4 a _ _ b4 (hab _ (by linarith)) f4 q4
  unfold Eom.stepF
  rw [h6, h3]
  exact ⟨ax_smul (ax_smul (ax_smul (ax_smul f1 q1) q2) q3) q4, ax_smul (ax_smul (ax_smul (ax_smul q1 r1) r2) r3) r4⟩

theorem evo_small (y z : ℕ → ℝ) (N : ℕ) : ∃ B : ℝ, 0 ≤ B ∧ ∀ j, j ≤ N → ∃ y' z' : ℕ → ℝ, ∀ (a : ℝ) (F Q : List CR), |a| * B < 1 →
    IsF g.d.total F (fun i => a * y i) → IsF g.d.total Q (fun i => a * z i) →
    IsF g.d.total (evoP e g F Q j).1 (fun i => a * y' i) ∧ IsF g.d.total (evoP e g F Q j).2 fun i => a * z' i := by
  induction N with
  | zero =>
    refine ⟨0, le_rfl, fun j hj => ⟨y, z, fun a F Q _ hF hQ => ?_⟩⟩
    obtain rfl : j = 0 := by omega
    exact ⟨hF, hQ⟩
  | succ N ih =>
    obtain ⟨B, hB, ih⟩ := ih
    obtain ⟨y', z', hN⟩ := ih N (le_refl _)
    obtain ⟨C, y2, z2, hC, hs⟩ := step_small h he ho h0 h1 h2 hk0 hkm hk1 hk2 hv3 hv4 y' z'
    refine ⟨B + C, by linarith, fun j hj => ?_⟩
    have le : ∀ a B', |a| * (B + C) < 1 → B' ≤ B + C → |a| * B' < 1 := fun a B' ha hB =>
      lt_of_le_of_lt (mul_le_mul_of_nonneg_left hB (abs_nonneg a)) ha
    rcases Nat.lt_or_ge N j with hj' | hj'
    · obtain rfl : j = N + 1 := by omega
      refine ⟨y2, z2, fun a F Q ha hF hQ => ?_⟩
      obtain ⟨k1, k2⟩ := hN a F Q (le a B ha (by linarith)) hF hQ
      exact hs a _ _ (le a C ha (by linarith)) k1 k2
    · obtain ⟨y3, z3, h3⟩ := ih j hj'
      exact ⟨y3, z3, fun a F Q ha hF hQ => h3 a F Q (le a B ha (by linarith)) hF hQ⟩

/-- C74: with `k` constant and non-zero and a purely quadratic potential, every state, scaled down enough, can be evolved for any given
number of steps without meeting a non-finite value: for all states `(y,z)` and `N` there is `ε > 0` such that the evolution of
`a·(y,z)` stays finite for `N` steps whenever `|a| < ε`. -/
theorem C74_small_free_fields_stay_finite (y z : ℕ → ℝ) (N : ℕ) : ∃ ε : ℝ, 0 < ε ∧ ∀ a : ℝ, |a| < ε → ∀ f p : Field CR,
    f.Sized (P.nx * P.nlat * P.nphi) → p.Sized (P.nx * P.nlat * P.nphi) → (∀ i, i < P.nx * P.nlat * P.nphi → gv f.n i = fin (a * y i)) →
    (∀ i, i < P.nx * P.nlat * P.nphi → gv p.n i = fin (a * z i)) → StaysFinite g e f p N := by
  have ht := h.setup.total
  obtain ⟨B, hB, hs⟩ := evo_small h he ho h0 h1 h2 hk0 hkm hk1 hk2 hv3 hv4 y z N
  refine ⟨1 / (B + 1), by positivity, fun a ha f p hf hp hF hQ j hj J e' f' p' hev => ?_⟩
  obtain ⟨s, F, Q, a1, _, _, _, a5, a6⟩ := evolve_eq h.setup he J hf hp j
  rw [a1] at hev
  have hB1 : |a| * B < 1 := by
    rw [lt_div_iff₀ (by linarith)] at ha
    nlinarith [abs_nonneg a]
  obtain ⟨y', z', hj'⟩ := hs j hj
  obtain ⟨k1, k2⟩ := hj' a f.n p.n hB1 ⟨hf.1.trans ht.symm, by rwa [ht]⟩ ⟨hp.1.trans ht.symm, by rwa [ht]⟩
  injection hev with hev
  injection hev with _ hev
  injection hev with e1 e2
  subst e1 e2
  rw [a5, a6]
  exact ⟨k1.allFin, k2.allFin⟩

end small

/-! ## Non-vacuity -/

/-- the parameters of the examples with a purely quadratic potential -/
noncomputable def freeQ : Phys := { demoQ with V4 := 0 }
noncomputable def freeP : ParamRec CR := { demoP with V4 := fin 0 }

theorem free_exact (contig ndebug useCheb : Bool) : ∃ (E : Env CR) (x : ℕ → ℝ) (A : ℕ → ℕ → ℕ → ℝ) (g : Grid CR) (e : Eom CR),
    Exact E freeP g freeQ x A ∧ Eom.Of g freeP e ∧ freeQ.Ok ∧ 0 < freeQ.lo ∧ freeQ.lo < freeQ.up ∧ freeQ.up ≤ freeQ.L ∧ freeQ.k0 ≠ 0 ∧
    freeQ.k0 + freeQ.km1 ≠ 0 := by
  obtain ⟨E, x, A, g, e, h1, h2, h3, h4, h5, h6, h7⟩ := demo_setup contig ndebug useCheb
  have hS : Setup E freeP g := ⟨⟨h5.sized, h5.sizes, h5.grid⟩, h5.orders⟩
  obtain ⟨e', _, he'⟩ := Eom.Of.exists hS
  have hlo : compR 100 (9/10) = 900 / 1009 := by unfold compR; norm_num
  refine ⟨E, x, A, g, e', ⟨hS, h4, by constructor <;> rfl, ?_, ?_⟩, he', ⟨demo_ok.1, demo_ok.2, demo_ok.3, demo_ok.4⟩, ?_, ?_, ?_, ?_, ?_⟩ <;>
    simp only [freeQ, demoQ, hlo] <;> norm_num

/-- non-vacuity of C48 and C75: a set-up satisfying all hypotheses; C48 applied to it, for 1000 steps. -/
example : ∃ (E : Env CR) (x : ℕ → ℝ) (A : ℕ → ℕ → ℕ → ℝ) (g : Grid CR) (e : Eom CR) (f p : Field CR),
    Exact E freeP g freeQ x A ∧ Eom.Of g freeP e ∧ freeQ.Ok ∧ 0 < freeQ.lo ∧ freeQ.lo < freeQ.up ∧ freeQ.up ≤ freeQ.L ∧
    f.n.length = freeP.nx * freeP.nlat * freeP.nphi ∧ StaysFinite g e f p 1000 := by
  obtain ⟨E, x, A, g, e, h, he, ho, h0, h1, h2, hk0, hk⟩ := free_exact false true true
  obtain ⟨n, hn⟩ : ∃ n, n = freeP.nx * freeP.nlat * freeP.nphi := ⟨_, rfl⟩
  let F : Field CR := ⟨"f", tab n fun _ => fin 0, tab n fun _ => fin 0, tab n fun _ => fin 0, tab n fun _ => fin 0, n⟩
  have hz : ∀ i, i < n → gv F.n i = fin 0 := fun i hi => gv_tab hi
  have hF : F.Sized n := by simp [F, Field.Sized]
  have hlen : F.n.length = n := by simp [F]
  rw [hn] at hz hF hlen
  refine ⟨E, x, A, g, e, F, F, h, he, ho, h0, h1, h2, hlen, ?_⟩
  intro j _ J e' f' p' hev
  obtain ⟨a, F', Q', k1, k2, k3, k4, k5⟩ := C48_vacuum_stays h he ho h0 h1 h2 hk J hF hF hz hz j
  rw [k1] at hev
  cases hev
  exact ⟨(allFin_iff k2.1).mpr fun i hi => ⟨0, k4 i hi⟩, (allFin_iff k3.1).mpr fun i hi => ⟨0, k5 i hi⟩⟩

/-- non-vacuity of C49-C51, C74: on a spinning black hole, a run of 3 steps from a state that depends on all three coordinates and
stays finite, together with its reflection, a rotation of it, and a superposition of both. -/
example : ∃ (E : Env CR) (x : ℕ → ℝ) (A : ℕ → ℕ → ℕ → ℝ) (g : Grid CR) (e : Eom CR) (f p f₂ p₂ f₃ p₃ f₄ p₄ : Field CR),
    Exact E freeP g freeQ x A ∧ Eom.Of g freeP e ∧ freeP.nl ≤ freeP.nm + 1 ∧ freeQ.Ok ∧ StaysFinite g e f p 3 ∧ StaysFinite g e f₂ p₂ 3 ∧
    StaysFinite g e f₃ p₃ 3 ∧ StaysFinite g e f₄ p₄ 3 ∧ (∀ i, i < g.d.total → gv f₂.n i = -gv f.n i ∧ gv p₂.n i = -gv p.n i) ∧
    Rotated g.d 5 f.n f₃.n ∧ Rotated g.d 5 p.n p₃.n ∧ Superposed 2 3 f.n f₃.n f₄.n ∧ Superposed 2 3 p.n p₃.n p₄.n ∧
    gv f.n 0 ≠ gv f.n 1 ∧ gv f.n 0 ≠ fin 0 := by
  obtain ⟨E, x, A, g, e, h, he, ho, h0, h1, h2, hk0, hk⟩ := free_exact true false false
  have ht := h.setup.total
  have key := fun y z => C74_small_free_fields_stay_finite h he ho h0 h1 h2 hk0 rfl rfl rfl rfl rfl y z 3
  let y : ℕ → ℝ := fun i => i + 1
  let y3 : ℕ → ℝ := fun i => y (g.d.rot 5 i)
  let y4 : ℕ → ℝ := fun i => 2 * y i + 3 * y3 i
  obtain ⟨ε1, p1, k1⟩ := key y y
  obtain ⟨ε3, p3, k3⟩ := key y3 y3
  obtain ⟨ε4, p4, k4⟩ := key y4 y4
  let a : ℝ := min ε1 (min ε3 ε4) / 2
  have ha : 0 < a := by positivity
  have hm1 := min_le_left ε1 (min ε3 ε4)
  have hm2 := (min_le_right ε1 (min ε3 ε4)).trans (min_le_left _ _)
  have hm3 := (min_le_right ε1 (min ε3 ε4)).trans (min_le_right _ _)
  have hm : 0 < min ε1 (min ε3 ε4) := by positivity
  have a1 : |a| < ε1 := by rw [abs_of_pos ha]; simp only [a]; linarith
  have a3 : |a| < ε3 := by rw [abs_of_pos ha]; simp only [a]; linarith
  have a4 : |a| < ε4 := by rw [abs_of_pos ha]; simp only [a]; linarith
  let T : (ℕ → ℝ) → List CR := fun w => tab g.d.total fun i => fin (w i)
  let mk : (ℕ → ℝ) → Field CR := fun w => ⟨"f", T w, T w, T w, T w, g.d.total⟩
  have hmk : ∀ w, (mk w).Sized (freeP.nx * freeP.nlat * freeP.nphi) := fun w => by rw [← ht]; simp [mk, T, Field.Sized]
  have hgv : ∀ (w : ℕ → ℝ) i, i < g.d.total → gv (mk w).n i = fin (w i) := fun w i hi => gv_tab hi
  have hgv' : ∀ (w : ℕ → ℝ) i, i < freeP.nx * freeP.nlat * freeP.nphi → gv (mk w).n i = fin (w i) := fun w i hi => gv_tab (by rwa [ht])
  have tot : 1 < g.d.total := by rw [ht]; decide
  have rot : Rotated g.d 5 (mk fun i => a * y i).n (mk fun i => a * y3 i).n := by
    rw [rotated_iff h.setup.wf.ok]
    intro i hi
    rw [hgv _ i hi, hgv _ _ (g.d.rot_lt hi)]
  have sup : Superposed 2 3 (mk fun i => a * y i).n (mk fun i => a * y3 i).n (mk fun i => a * y4 i).n := by
    intro i hi
    have hi' : i < g.d.total := by rw [ht, ← (hmk fun i => a * y4 i).1]; exact hi
    rw [hgv _ i hi', hgv _ i hi', hgv _ i hi', fin_mul, fin_mul, fin_add, fin_inj]
    simp only [y4]
    ring
  refine ⟨E, x, A, g, e, mk fun i => a * y i, mk fun i => a * y i, mk fun i => (-a) * y i, mk fun i => (-a) * y i, mk fun i => a * y3 i,
    mk fun i => a * y3 i, mk fun i => a * y4 i, mk fun i => a * y4 i, h, he, by show 7 ≤ 7 + 1; omega, ho, ?_, ?_, ?_, ?_, ?_, rot, rot, sup, sup, ?_, ?_⟩
  · exact k1 a a1 _ _ (hmk _) (hmk _) (hgv' _) (hgv' _)
  · exact k1 (-a) (by rwa [abs_neg]) _ _ (hmk _) (hmk _) (hgv' _) (hgv' _)
  · exact k3 a a3 _ _ (hmk _) (hmk _) (hgv' _) (hgv' _)
  · exact k4 a a4 _ _ (hmk _) (hmk _) (hgv' _) (hgv' _)
  · intro i hi
    rw [hgv _ i hi, hgv _ i hi, fin_neg, fin_inj]
    exact ⟨by ring, by ring⟩
  · rw [hgv _ 0 (by omega), hgv _ 1 tot, Ne, fin_inj]
    simp only [y]
    push_cast
    nlinarith
  · rw [hgv _ 0 (by omega), Ne, fin_inj]
    simp only [y]
    push_cast
    nlinarith

end SFK
