import Verif.Lemmas.MirrorInstance
import Verif.Props.Axisym
/-
C104: reflection about the equatorial plane.
-/
namespace SFK
open Scalar CR Kerr

variable {E : Env CR} {P : ParamRec CR} {g : Grid CR} {q : Phys} {x : ℕ → ℝ} {A : ℕ → ℕ → ℕ → ℝ} {e : Eom CR}

/-- the coefficients depend on the polar angle through its squared cosine only -/
theorem Eom.Of.coef_mir (h : Exact E P g q x A) (hs : EquatorSym P.nlat P.nl P.nm x A) (he : Eom.Of g P e) {i : ℕ} (hi : i < g.d.total) :
    gv e.coef i = gv e.coef (g.d.mir i) := by
  obtain ⟨s, _, rfl⟩ := he.eq h.setup
  obtain ⟨r1, r2, r3⟩ := g.d.mir_dec hi
  obtain ⟨h1, _⟩ := g.d.dec3 hi
  have hw := h.setup.wf
  have hm := h.math
  show gv (g.d.mk3 fun ix it _ => Eom.coefAt g P ix it : List (Coef CR)) _ = gv (g.d.mk3 fun ix it _ => Eom.coefAt g P ix it : List (Coef CR)) _
  unfold Dims.mk3
  rw [gv_tab hi, gv_tab (g.d.mir_lt hi), r1, r2]
  have ht := h1.2.1
  have e1 := hm.ct (g.d.dT i) (by rw [hw.nlat]; exact ht)
  have e2 := hm.ct (g.d.nlat - 1 - g.d.dT i) (by rw [hw.nlat]; omega)
  have i1 := hm.inside (g.d.dT i) (by rw [hw.nlat]; exact ht)
  have hx : x (g.d.nlat - 1 - g.d.dT i) = -x (g.d.dT i) := by
    rw [h.nlat]; exact hs.node _ (by rw [← h.nlat]; exact ht)
  have c1 : (pown (cos (g.thV (g.d.dT i))) 2 : CR) = fin (x (g.d.dT i) ^ 2) := by
    unfold Grid.thV
    rw [e1, fin_acos _ i1.1.le i1.2.le, fin_cos, Real.cos_arccos i1.1.le i1.2.le, fin_pown]
  have c2 : (pown (cos (g.thV (g.d.nlat - 1 - g.d.dT i))) 2 : CR) = fin (x (g.d.dT i) ^ 2) := by
    unfold Grid.thV
    rw [e2, hx, fin_acos _ (by linarith [i1.2]) (by linarith [i1.1]), fin_cos, Real.cos_arccos (by linarith [i1.2]) (by linarith [i1.1]), fin_pown, neg_sq]
  beta_reduce
  unfold Eom.coefAt coefOf
  rw [c1, c2]

theorem mir_acts {d : Dims} {T : List CR → List CR} (hT : MirF d T) {v w : List CR} {u : ℕ → ℝ} (hv : IsF d.total v u) (hw : w.length = d.total)
    (h : ∀ i, i < d.total → gv w i = gv v (d.mir i)) :
    IsF d.total w (fun i => u (d.mir i)) ∧ ∀ i, i < d.total → gv (T w) i = gv (T v) (d.mir i) := by
  obtain ⟨D, a, b⟩ := hT
  exact rot_acts (fun i hi => d.mir_lt hi) a b hv hw h

theorem sym_mir (h : Exact E P g q x A) (hs : EquatorSym P.nlat P.nl P.nm x A) (he : Eom.Of g P e)
    (hml : P.nl ≤ P.nm + 1 ∨ q.km1 = 0 ∧ q.k1 = 0 ∧ q.k2 = 0) :
    Sym e g (ι := Bool) (fun r => r = false) fun v => ∀ i, i < g.d.total → gv (v true) i = gv (v false) (g.d.mir i) := by
  obtain ⟨opr, op2r, oph, olap, ofl⟩ := h.mir_ops hs
  obtain ⟨X, x1, _⟩ := h.opX
  obtain ⟨_, _, ph, _, _, o⟩ := h.ops
  obtain ⟨q1, q2, q3, q4, _⟩ := he.par h.setup h.phys
  have hρ : ∀ i, i < g.d.total → g.d.mir i < g.d.total := fun i hi => g.d.mir_lt hi
  refine ⟨?_, ?_, ?_⟩
  · intro u w c h1 h2 i hi
    rw [Eom.ax_gv hi, Eom.ax_gv (hρ i hi), h1 i hi, h2 i hi]
  · intro u hl hf h1
    obtain ⟨y, hy⟩ := (hf false rfl).isF (hl false)
    exact (mir_acts ofl hy (hl true) h1).2
  · intro u w hl hl' hf hf' hr h1 h2 i hi
    obtain ⟨y, hy⟩ := (hf false rfl).isF (hl false)
    obtain ⟨z, hz⟩ := (hf' false rfl).isF (hl' false)
    have e1 := mir_acts opr hy (hl true) h1
    have e2 := mir_acts opr hz (hl' true) h2
    have e3 := mir_acts op2r hy (hl true) h1
    have e4 := mir_acts oph hy (hl true) h1
    have e5 := mir_acts opr (o.ph.1 _ _ hy) (by simp) e4.2
    have e7 := mir_acts olap hy (hl true) h1
    obtain ⟨rf, hrf⟩ := (hr false rfl).isF (n := g.d.total) (by simp)
    have kf := hrf.2 _ (hρ i hi)
    rw [kf]
    unfold Eom.rhs at kf ⊢
    rw [gv_tab (hρ i hi)] at kf
    rw [gv_tab hi, he.coef_mir h hs hi, h1 i hi, h2 i hi, e1.2 i hi, e2.2 i hi, e3.2 i hi, e4.2 i hi, e5.2 i hi, e7.2 i hi]
    rcases hml with hml | ⟨z1, z2, z3⟩
    · have e6 := mir_acts (h.mir_X hs hml) hy (hl true) h1
      rw [e6.2 i hi]
      exact kf
    · rw [(x1 _ _ e1.1).2 i hi]
      exact pk_noX kf (by rw [q1, z1]) (by rw [q3, z2]) (by rw [q4, z3]) _

theorem mirrored_iff (hw : g.d.Ok) (v w : List CR) : Mirrored g.d v w ↔ ∀ i, i < g.d.total → gv w i = gv v (g.d.mir i) := by
  constructor
  · intro h i hi
    obtain ⟨h1, h2⟩ := g.d.dec3 hi
    have hr := g.d.mir_in hi
    have := h _ _ _ h1.1 h1.2.1 h1.2.2
    rw [hw.at3_eq _ h1, hw.at3_eq _ hr, h2] at this
    exact this
  · intro h ix it ip hx ht hp
    have hr : g.d.InR ix it ip := ⟨hx, ht, hp⟩
    rw [hw.at3_eq _ hr, hw.at3_eq _ ⟨hx, by omega, hp⟩, h _ (g.d.pos3_lt hr), g.d.mir_pos3 hr]

theorem antiMirrored_iff (hw : g.d.Ok) (v w : List CR) : AntiMirrored g.d v w ↔ ∀ i, i < g.d.total → gv w i = -gv v (g.d.mir i) := by
  constructor
  · intro h i hi
    obtain ⟨h1, h2⟩ := g.d.dec3 hi
    have hr := g.d.mir_in hi
    have := h _ _ _ h1.1 h1.2.1 h1.2.2
    rw [hw.at3_eq _ h1, hw.at3_eq _ hr, h2] at this
    exact this
  · intro h ix it ip hx ht hp
    have hr : g.d.InR ix it ip := ⟨hx, ht, hp⟩
    rw [hw.at3_eq _ hr, hw.at3_eq _ ⟨hx, by omega, hp⟩, h _ (g.d.pos3_lt hr), g.d.mir_pos3 hr]

/-- C104: for a state `(f₁,p₁)` whose evolution stays finite for `N` steps, evolving the state reflected about the equatorial plane gives the
evolved state reflected about the equatorial plane, whatever the scratch arrays and the uninitialised memory contain in the two runs, on
any black hole, spinning or not.  Needs at most one order missing (`nm≥nl-1`) or a constant kinetic function (`km1=k1=k2=0`); otherwise see
C104_reflection_violated. -/
theorem C104_reflection_partial (h : Exact E P g q x A) (hs : EquatorSym P.nlat P.nl P.nm x A)
    (hml : P.nl ≤ P.nm + 1 ∨ q.km1 = 0 ∧ q.k1 = 0 ∧ q.k2 = 0) {e₁ e₂ : Eom CR} (he₁ : Eom.Of g P e₁) (he₂ : Eom.Of g P e₂)
    (J₁ J₂ : ℕ → Junk (Cx CR)) {f₁ p₁ f₂ p₂ : Field CR} (hf₁ : f₁.Sized (P.nx * P.nlat * P.nphi)) (hp₁ : p₁.Sized (P.nx * P.nlat * P.nphi))
    (hf₂ : f₂.Sized (P.nx * P.nlat * P.nphi)) (hp₂ : p₂.Sized (P.nx * P.nlat * P.nphi)) (N : ℕ)
    (hF : Mirrored g.d f₁.n f₂.n) (hQ : Mirrored g.d p₁.n p₂.n) (hfin : StaysFinite g e₁ f₁ p₁ N) :
    ∃ a₁ a₂ F₁ F₂ Q₁ Q₂, evolve g J₁ e₁ f₁ p₁ N = .ok (a₁, F₁, Q₁) ∧ evolve g J₂ e₂ f₂ p₂ N = .ok (a₂, F₂, Q₂) ∧
      Mirrored g.d F₁.n F₂.n ∧ Mirrored g.d Q₁.n Q₂.n := by
  have hS := h.setup
  have ht := hS.total
  have hev : evoP e₂ g f₂.n p₂.n N = evoP e₁ g f₂.n p₂.n N := by
    obtain ⟨s1, _, rfl⟩ := he₁.eq hS
    obtain ⟨s2, _, rfl⟩ := he₂.eq hS
    clear hfin
    induction N with
    | zero => rfl
    | succ N ih => unfold evoP; rw [ih]; rfl
  obtain ⟨s1, F₁, Q₁, a1, _, _, _, a5, a6⟩ := evolve_eq hS he₁ J₁ hf₁ hp₁ N
  obtain ⟨s2, F₂, Q₂, b1, _, _, _, b5, b6⟩ := evolve_eq hS he₂ J₂ hf₂ hp₂ N
  refine ⟨_, _, F₁, F₂, Q₁, Q₂, a1, b1, ?_⟩
  obtain ⟨_, _, _, _, _, _, _, hdt⟩ := he₁.par hS h.phys
  have key := (sym_mir h hs he₁ hml).evo hdt (F := fun r => if r then f₂.n else f₁.n) (Q := fun r => if r then p₂.n else p₁.n)
    (fun r => by cases r <;> simp [hf₁.1, hf₂.1, ht]) (fun r => by cases r <;> simp [hp₁.1, hp₂.1, ht])
    (by simpa using (mirrored_iff hS.wf.ok _ _).mp hF) (by simpa using (mirrored_iff hS.wf.ok _ _).mp hQ) N
    (fun r hr j hj => by subst hr; simpa using hfin.evoP hS he₁ hf₁ hp₁ j hj)
  rw [mirrored_iff hS.wf.ok, mirrored_iff hS.wf.ok, a5, a6, b5, b6, hev]
  simpa using key

/-- C104, symmetric states: a state that is its own reflection about the equatorial plane is its own reflection after any number of steps (as
long as the evolution stays finite).  Same restriction as C104_reflection_partial. -/
theorem C104_symmetric_states_partial (h : Exact E P g q x A) (hs : EquatorSym P.nlat P.nl P.nm x A)
    (hml : P.nl ≤ P.nm + 1 ∨ q.km1 = 0 ∧ q.k1 = 0 ∧ q.k2 = 0) (he : Eom.Of g P e) (J : ℕ → Junk (Cx CR)) {f p : Field CR}
    (hf : f.Sized (P.nx * P.nlat * P.nphi)) (hp : p.Sized (P.nx * P.nlat * P.nphi)) (N : ℕ)
    (hF : Mirrored g.d f.n f.n) (hQ : Mirrored g.d p.n p.n) (hfin : StaysFinite g e f p N) :
    ∃ a F Q, evolve g J e f p N = .ok (a, F, Q) ∧ Mirrored g.d F.n F.n ∧ Mirrored g.d Q.n Q.n := by
  obtain ⟨a₁, a₂, F₁, F₂, Q₁, Q₂, c1, c2, c3, c4⟩ := C104_reflection_partial h hs hml he he J J hf hp hf hp N hF hQ hfin
  rw [c1] at c2
  cases c2
  exact ⟨_, _, _, c1, c3, c4⟩

/-- the reflection of a field, in new storage -/
noncomputable def Field.mirror (d : Dims) (f : Field CR) : Field CR :=
  ⟨"m", tab d.total fun i => gv f.n (d.mir i), tab d.total fun _ => 0, tab d.total fun _ => 0, tab d.total fun _ => 0, d.total⟩

theorem Field.mirror_sized (d : Dims) (f : Field CR) : (f.mirror d).Sized d.total := by simp [Field.mirror, Field.Sized]

theorem Field.mirror_is (hw : g.d.Ok) (f : Field CR) : Mirrored g.d f.n (f.mirror g.d).n := by
  rw [mirrored_iff hw]
  intro i hi
  unfold Field.mirror
  exact gv_tab hi

/-- C104, antisymmetric states: with an even potential and an even kinetic function (`km1=k1=V3=0`) a state that is the opposite of its
reflection about the equatorial plane still is after any number of steps (as long as the evolution stays finite).  Same restriction as
C104_reflection_partial. -/
theorem C104_antisymmetric_states_partial (h : Exact E P g q x A) (hs : EquatorSym P.nlat P.nl P.nm x A) (hk : q.km1 = 0) (hk1 : q.k1 = 0)
    (hv : q.V3 = 0) (hml : P.nl ≤ P.nm + 1 ∨ q.k2 = 0) (he : Eom.Of g P e) (J : ℕ → Junk (Cx CR)) {f p : Field CR}
    (hf : f.Sized (P.nx * P.nlat * P.nphi)) (hp : p.Sized (P.nx * P.nlat * P.nphi)) (N : ℕ)
    (hF : AntiMirrored g.d f.n f.n) (hQ : AntiMirrored g.d p.n p.n) (hfin : StaysFinite g e f p N) :
    ∃ a F Q, evolve g J e f p N = .ok (a, F, Q) ∧ AntiMirrored g.d F.n F.n ∧ AntiMirrored g.d Q.n Q.n := by
  have ht := h.setup.total
  have hok := h.setup.wf.ok
  have hml' : P.nl ≤ P.nm + 1 ∨ q.km1 = 0 ∧ q.k1 = 0 ∧ q.k2 = 0 := hml.imp id fun z => ⟨hk, hk1, z⟩
  have mf : (f.mirror g.d).Sized (P.nx * P.nlat * P.nphi) := by rw [← ht]; exact f.mirror_sized _
  have mp : (p.mirror g.d).Sized (P.nx * P.nlat * P.nphi) := by rw [← ht]; exact p.mirror_sized _
  have key := fun J₁ J₂ j (hj : j ≤ N) => C104_reflection_partial h hs hml' he he J₁ J₂ hf hp mf mp j (f.mirror_is hok) (p.mirror_is hok)
    (fun i hi => hfin i (hi.trans hj))
  have hmir : ∀ v w : List CR, w.length = g.d.total → v.length = g.d.total → Mirrored g.d v w → AllFin v → AllFin w := by
    intro v w hw hv hm ha
    rw [allFin_iff hw]
    intro i hi
    rw [(mirrored_iff hok v w).mp hm i hi]
    exact (allFin_iff hv).mp ha _ (g.d.mir_lt hi)
  have hfin2 : StaysFinite g e (f.mirror g.d) (p.mirror g.d) N := by
    intro j hj J' e' f' p' hev
    obtain ⟨a₁, a₂, F₁, F₂, Q₁, Q₂, c1, c2, c3, c4⟩ := key J' J' j hj
    rw [hev] at c2
    cases c2
    obtain ⟨_, _, _, b1, _, z1, z2, _⟩ := evolve_eq h.setup he J' hf hp j
    obtain ⟨_, _, _, b2, _, z3, z4, _⟩ := evolve_eq h.setup he J' mf mp j
    rw [c1] at b1
    rw [hev] at b2
    cases b1
    cases b2
    obtain ⟨d1, d2⟩ := hfin j hj _ _ _ _ c1
    exact ⟨hmir _ _ (by rw [z3.1, ht]) (by rw [z1.1, ht]) c3 d1, hmir _ _ (by rw [z4.1, ht]) (by rw [z2.1, ht]) c4 d2⟩
  obtain ⟨a₁, a₂, F₁, F₂, Q₁, Q₂, c1, c2, c3, c4⟩ := key J J N le_rfl
  obtain ⟨b₁, b₂, F₃, F₄, Q₃, Q₄, d1, d2, d3⟩ := C50_reflection h hk hk1 hv he he J J mf mp hf hp N
    (fun i hi => by
      have hi' : i < g.d.total := by rw [ht]; exact hi
      rw [(antiMirrored_iff hok _ _).mp hF i hi', (mirrored_iff hok _ _).mp (f.mirror_is hok) i hi'])
    (fun i hi => by
      have hi' : i < g.d.total := by rw [ht]; exact hi
      rw [(antiMirrored_iff hok _ _).mp hQ i hi', (mirrored_iff hok _ _).mp (p.mirror_is hok) i hi'])
    hfin2 hfin
  rw [c1] at d2
  rw [c2] at d1
  cases d1
  cases d2
  refine ⟨_, _, _, c1, (antiMirrored_iff hok _ _).mpr fun i hi => ?_, (antiMirrored_iff hok _ _).mpr fun i hi => ?_⟩
  · rw [(d3 i (by rw [← ht]; exact hi)).1, (mirrored_iff hok _ _).mp c3 i hi]
  · rw [(d3 i (by rw [← ht]; exact hi)).2, (mirrored_iff hok _ _).mp c4 i hi]

/-- C104, energy density: the density of the reflected state is the reflected density (with at most one order missing). -/
theorem C104_density_partial (h : Exact E P g q x A) (hs : EquatorSym P.nlat P.nl P.nm x A) (hml : P.nl ≤ P.nm + 1) {e₁ e₂ : Eom CR}
    (he₁ : Eom.Of g P e₁) (he₂ : Eom.Of g P e₂) (J₁ J₂ : Junk (Cx CR)) {f₁ p₁ f₂ p₂ z₁ z₂ : List CR}
    (hf₁ : f₁.length = P.nx * P.nlat * P.nphi) (hp₁ : p₁.length = P.nx * P.nlat * P.nphi) (hf₂ : f₂.length = P.nx * P.nlat * P.nphi)
    (hp₂ : p₂.length = P.nx * P.nlat * P.nphi) (hz₁ : z₁.length = P.nx * P.nlat * P.nphi) (hz₂ : z₂.length = P.nx * P.nlat * P.nphi)
    (hF : Mirrored g.d f₁ f₂) (hQ : Mirrored g.d p₁ p₂) (hfin : AllFin f₁) :
    ∃ a₁ a₂ D₁ D₂, e₁.set_rho g J₁ f₁ p₁ z₁ = .ok (a₁, D₁) ∧ e₂.set_rho g J₂ f₂ p₂ z₂ = .ok (a₂, D₂) ∧ Mirrored g.d D₁ D₂ := by
  have hS := h.setup
  have ht := hS.total
  have hw := hS.wf
  refine ⟨_, _, _, _, Eom.set_rho_eq hw (he₁.wf hS) J₁ (hf₁.trans ht.symm) (hp₁.trans ht.symm) (hz₁.trans ht.symm),
    Eom.set_rho_eq hw (he₂.wf hS) J₂ (hf₂.trans ht.symm) (hp₂.trans ht.symm) (hz₂.trans ht.symm), ?_⟩
  rw [mirrored_iff hw.ok]
  rw [mirrored_iff hw.ok] at hF hQ
  intro i hi
  obtain ⟨y, hy⟩ := hfin.isF (hf₁.trans ht.symm)
  obtain ⟨opr, _, oph, _, _⟩ := h.mir_ops hs
  have hc : gv e₂.coef i = gv e₁.coef (g.d.mir i) := by
    rw [← he₁.coef_mir h hs hi]
    obtain ⟨s1, _, rfl⟩ := he₁.eq hS
    obtain ⟨s2, _, rfl⟩ := he₂.eq hS
    rfl
  have hr : ∀ c f p r ph X, e₂.rhoVal c f p r ph X = e₁.rhoVal c f p r ph X := by
    obtain ⟨s1, _, rfl⟩ := he₁.eq hS
    obtain ⟨s2, _, rfl⟩ := he₂.eq hS
    exact fun c f p r ph X => rfl
  unfold Eom.rhoP
  rw [gv_tab hi, gv_tab (g.d.mir_lt hi), hr, hc, hF i hi, hQ i hi, (mir_acts opr hy (hf₂.trans ht.symm) hF).2 i hi,
    (mir_acts oph hy (hf₂.trans ht.symm) hF).2 i hi, (mir_acts (h.mir_X hs hml) hy (hf₂.trans ht.symm) hF).2 i hi]

/-! ## With two or more orders missing -/

theorem axi_mir {L M : ℕ} (hg : Gap L M) (a θ φ : ℝ) :
    fieldR L M (axiC L M ((-1) ^ (M + 1) * a) ((-1) ^ L * a)) θ φ = fieldR L M (axiC L M a a) (Real.pi - θ) φ := by
  have := hg.gap
  rw [← fieldR_mir]
  apply fieldR_congr
  intro l m _ _ _
  unfold axiC eps
  by_cases h : m = 0 ∧ (l = M + 1 ∨ l = L)
  · rw [if_pos h, if_pos h]
    obtain ⟨rfl, rfl | rfl⟩ := h
    · rw [if_neg (by omega), if_neg (by omega)]
      push_cast
      ring
    · rw [if_pos rfl, if_pos rfl]
      push_cast
      ring
  · rw [if_neg h, if_neg h]; simp

theorem axi_mir_differs {L M : ℕ} (hg : Gap L M) {a θ : ℝ} (ha : a ≠ 0) (h0 : ThN L 0 θ ≠ 0) (h1 : ThN (M + 1) 1 θ ≠ 0) {φ : ℝ} (hφ : Real.cos φ ≠ 0) :
    sphXG L M (axiC L M ((-1) ^ (M + 1) * a) ((-1) ^ L * a)) θ φ ≠ sphXG L M (axiC L M a a) (Real.pi - θ) φ := by
  rw [hg.sphXG_axi, hg.sphXG_axi, ThN_mir, ThN_mir]
  intro he
  have hf := Gap.factor M
  generalize Real.sqrt ((M + 2) * (M + 1)) = S at *
  generalize Real.sqrt (M * (M + 3)) = T at *
  have e1 : ((-1 : ℝ) ^ (M + 1)) * (-1) ^ (M + 1) = 1 := by rw [← mul_pow]; simp
  have e2 : ((-1 : ℝ) ^ (M + 1 + 1)) = -(-1) ^ (M + 1) := by rw [pow_succ]; ring
  rw [e2] at he
  have e3 : ((-1 : ℝ) ^ (M + 1)) ≠ 0 := by positivity
  have e4 : ((-1 : ℝ) ^ L) ≠ 0 := by positivity
  generalize ((-1 : ℝ) ^ (M + 1)) = u at *
  simp only [Nat.add_zero] at he
  generalize ((-1 : ℝ) ^ L) = w at *
  generalize ThN (M + 1) 1 θ = Y at *
  generalize ThN L 0 θ = Z at *
  generalize Real.cos φ = C at *
  have : a * a * u * w * ((S - T) * Y * Z * C) = 0 := by linear_combination (-1 / 2) * he + (1/2) * (a * a * S * T * Y ^ 2 - a * a * S * T * Y ^ 2 ) * e1
  have h2 : S - T ≠ 0 := by linarith
  exact mul_ne_zero (mul_ne_zero (mul_ne_zero (mul_ne_zero ha ha) e3) e4) (mul_ne_zero (mul_ne_zero (mul_ne_zero h2 h1) h0) hφ) this

/-- the grid function with the values of an axisymmetric field on every shell -/
theorem axi_gradient (h : Exact E P g q x A) (hg : Gap P.nl P.nm) (a b : ℝ) {F : List CR}
    (hF : IsF g.d.total F fun i => fieldR P.nl P.nm (axiC P.nl P.nm a b) (Real.arccos (x (g.d.dT i))) 0) {ix it ip : ℕ} (hix : ix < P.nx)
    (hit : it < P.nlat) (hip : ip < P.nphi) : gv (g.psphXP F) (g.d.pos3 ix it ip)
      = fin (sphXG P.nl P.nm (axiC P.nl P.nm a b) (Real.arccos (x it)) (phiN P.nphi ip)) := by
  have hS := h.setup
  have hw := hS.wf
  have hm := h.math
  have d1 : g.sphere.lmax = P.nl := by rw [hw.lmax, hS.dims]
  have d2 : g.sphere.mmax = P.nm := by rw [hw.mmax, hS.dims]
  have d3 : g.sphere.nlat = P.nlat := by rw [hw.nlat, hS.dims]
  have d4 : g.sphere.nphi = P.nphi := by rw [hw.nphi, hS.dims]
  have hr := hS.inR hix hit hip
  have hsh := hF.shell hw.ok hr.1
  have hsm : Samples g.d.contig g.sphere.nlat g.sphere.nphi x (g.d.shellOf F ix) (fieldR g.sphere.lmax g.sphere.mmax (axiC P.nl P.nm a b)) := by
    rw [hw.nlat, hw.nphi, d1, d2]
    refine ⟨hsh.1, fun it' ip' b1 b2 => ?_⟩
    have hr' : g.d.InR ix it' ip' := ⟨hr.1, b1, b2⟩
    rw [hsh.2 it' ip' b1 b2]
    beta_reduce
    rw [g.d.dT_pos3 hr', Gap.fieldR_axi]
  have hrep := samples_rep hw.sph hm (fun l _ => axi_real P.nl P.nm a b l) hsm
  have hv := sphXP_rep hw.sph hm (gap_ncp hw.sph (by rw [d1, d2]; exact hg)) hrep (it := it) (ip := ip) (by rw [d3]; exact hit) (by rw [d4]; exact hip)
  rw [← hw.ok.at3_eq _ hr]
  unfold Grid.psphXP Dims.ofShells
  rw [hw.ok.at3_mk3 hr]
  unfold Dims.at2
  rw [hw.ok.indx2 hr.2.1 hr.2.2, pos2_eq_spos]
  rw [d1, d2, hw.nlat, hw.nphi, h.nphi] at hv
  rw [h.nphi]
  exact hv

/-- **C104**, violated: with two or more orders missing (`nm≤nl-2`, as in runscript_template.py, and not so many that `(nl-nm)^2≥nl`), on
every grid with distinct polar nodes symmetric about the equator and more than `nl+nm` of them, for every kinetic function with `k(0)≠0`,
`k'(0)≠0` and every shell at a finite radius, there are a state and its reflection about the equatorial plane (both at rest and finite) for
which the code computes finite second time derivatives that are not the reflections of each other. -/
theorem C104_reflection_violated (h : Exact E P g q x A) (hs : EquatorSym P.nlat P.nl P.nm x A) (he : Eom.Of g P e) (hq : q.Ok)
    (h1 : 1 ≤ P.nm) (h2 : P.nm + 2 ≤ P.nl) (h3 : (P.nl - P.nm) ^ 2 < P.nl) (hx : ∀ i j, i < P.nlat → j < P.nlat → x i = x j → i = j)
    (hn : P.nl + P.nm < P.nlat) (hk0 : q.k0 + q.km1 ≠ 0) (hk1 : q.k1 ≠ q.km1) {ix : ℕ} (hix : ix < P.nx)
    (hR : 0 < radPt E.useCheb P.nx q.lo q.up ix) (hL : 1 / 10 ^ 16 < q.L - radPt E.useCheb P.nx q.lo q.up ix) {fk pk : List CR}
    (hfk : fk.length = P.nx * P.nlat * P.nphi) (hpk : pk.length = P.nx * P.nlat * P.nphi) :
    ∃ (f p f' : List CR) (it : ℕ), f.length = P.nx * P.nlat * P.nphi ∧ f'.length = P.nx * P.nlat * P.nphi ∧
      p.length = P.nx * P.nlat * P.nphi ∧ AllFin f ∧ AllFin f' ∧ AllFin p ∧ it < P.nlat ∧ Mirrored g.d f f' ∧ Mirrored g.d p p ∧
      ∀ J, ∃ e₁ e₂ fk₁ fk₂ pk₁ pk₂ y₁ y₂, e.set_k g J f p fk pk = .ok (e₁, fk₁, pk₁) ∧ e.set_k g J f' p fk pk = .ok (e₂, fk₂, pk₂) ∧
        g.d.at3 pk₁ ix (P.nlat - 1 - it) 0 = fin y₁ ∧ g.d.at3 pk₂ ix it 0 = fin y₂ ∧ y₁ ≠ y₂ := by
  have hS := h.setup
  have hw := hS.wf
  have hm := h.math
  have ht := hS.total
  have hg : Gap P.nl P.nm := ⟨h1, h2, h3⟩
  have hphi : 0 < P.nphi := by have := hw.ok.nphi_pos; rw [h.nphi] at this; exact this
  have hin := hm.inside
  rw [hw.nlat, h.nlat] at hin
  obtain ⟨it, hit, t0, t1⟩ := exists_node hn hin hx
  have hit' : P.nlat - 1 - it < P.nlat := by omega
  -- the amplitude
  obtain ⟨T, hT⟩ : ∃ T : ℝ, ∀ a, fieldR P.nl P.nm (axiC P.nl P.nm a a) (Real.pi - Real.arccos (x it)) 0 = a * T := by
    refine ⟨fieldR P.nl P.nm (axiC P.nl P.nm 1 1) (Real.pi - Real.arccos (x it)) 0, fun a => ?_⟩
    have := congrFun (congrFun (fieldR_smul_fun P.nl P.nm (axiC P.nl P.nm 1 1) a) (Real.pi - Real.arccos (x it))) 0
    rw [← this]
    congr 1
    funext l m
    unfold axiC
    split_ifs <;> simp
  obtain ⟨a, ha, ka, kb, kc⟩ := kin_near q hk0 hk1 T
  obtain ⟨y, hy⟩ : ∃ y : ℕ → ℝ, y = fun i => fieldR P.nl P.nm (axiC P.nl P.nm a a) (Real.arccos (x (g.d.dT i))) 0 := ⟨_, rfl⟩
  obtain ⟨y', hy'⟩ : ∃ y' : ℕ → ℝ, y' = fun i => fieldR P.nl P.nm (axiC P.nl P.nm ((-1) ^ (P.nm + 1) * a) ((-1) ^ P.nl * a)) (Real.arccos (x (g.d.dT i))) 0 :=
    ⟨_, rfl⟩
  obtain ⟨F, hFd⟩ : ∃ F : List CR, F = tab g.d.total fun i => fin (y i) := ⟨_, rfl⟩
  obtain ⟨F', hFd'⟩ : ∃ F' : List CR, F' = tab g.d.total fun i => fin (y' i) := ⟨_, rfl⟩
  obtain ⟨Q, hQd⟩ : ∃ Q : List CR, Q = tab g.d.total fun _ => fin 0 := ⟨_, rfl⟩
  have hF : IsF g.d.total F y := ⟨by rw [hFd]; simp, fun i hi => by rw [hFd, gv_tab hi]⟩
  have hF' : IsF g.d.total F' y' := ⟨by rw [hFd']; simp, fun i hi => by rw [hFd', gv_tab hi]⟩
  have hQ : IsF g.d.total Q fun _ => 0 := ⟨by rw [hQd]; simp, fun i hi => by rw [hQd, gv_tab hi]⟩
  have hFm : ∀ i, i < g.d.total → gv F' i = gv F (g.d.mir i) := by
    intro i hi
    obtain ⟨r1, r2, r3⟩ := g.d.mir_dec hi
    have hb := (g.d.dec3 hi).1.2.1
    rw [hF'.2 i hi, hF.2 _ (g.d.mir_lt hi), hy, hy']
    beta_reduce
    rw [r2, axi_mir hg, h.nlat, arccos_mir hs (by rw [← h.nlat]; exact hb)]
  have hQm : ∀ i, i < g.d.total → gv Q i = gv Q (g.d.mir i) := by
    intro i hi
    rw [hQ.2 i hi, hQ.2 _ (g.d.mir_lt hi)]
  refine ⟨F, Q, F', it, by rw [hF.1, ht], by rw [hF'.1, ht], by rw [hQ.1, ht], (allFin_iff hF.1).mpr fun i hi => ⟨_, hF.2 i hi⟩,
    (allFin_iff hF'.1).mpr fun i hi => ⟨_, hF'.2 i hi⟩, (allFin_iff hQ.1).mpr fun i hi => ⟨_, hQ.2 i hi⟩, hit,
    (mirrored_iff hw.ok _ _).mpr hFm, (mirrored_iff hw.ok _ _).mpr hQm, ?_⟩
  -- the two points
  have hr0 := hS.inR hix hit hphi
  have hr1 := hS.inR hix hit' hphi
  obtain ⟨i0, hi0⟩ : ∃ i, i = g.d.pos3 ix it 0 := ⟨_, rfl⟩
  obtain ⟨i1, hi1⟩ : ∃ i, i = g.d.pos3 ix (P.nlat - 1 - it) 0 := ⟨_, rfl⟩
  have l0 : i0 < g.d.total := by rw [hi0]; exact g.d.pos3_lt hr0
  have l1 : i1 < g.d.total := by rw [hi1]; exact g.d.pos3_lt hr1
  have hmir : g.d.mir i0 = i1 := by rw [hi0, hi1, g.d.mir_pos3 hr0, h.nlat]
  -- the linear derivatives agree
  obtain ⟨opr, op2r, oph, olap, _⟩ := h.mir_ops hs
  obtain ⟨pr, p2r, ph, lap, fl, o⟩ := h.ops
  have e1 := (mir_acts opr hF hF'.1 hFm).2 i0 l0
  have e2 := (mir_acts opr hQ hQ.1 hQm).2 i0 l0
  have e3 := (mir_acts op2r hF hF'.1 hFm).2 i0 l0
  have e4 := (mir_acts oph hF hF'.1 hFm).2
  have e5 := (mir_acts opr (o.ph.1 _ _ hF) (by simp) e4).2 i0 l0
  have e7 := (mir_acts olap hF hF'.1 hFm).2 i0 l0
  have e4 := e4 i0 l0
  have eF := hFm i0 l0
  have eQ := hQm i0 l0
  rw [hmir] at e1 e2 e3 e4 e5 e7 eF eQ
  have hF1 : gv F i1 = fin (a * T) := by
    rw [hF.2 i1 l1, hy]
    beta_reduce
    have : g.d.dT i1 = P.nlat - 1 - it := by rw [hi1]; exact g.d.dT_pos3 hr1
    rw [this, arccos_mir hs hit, hT]
  -- the squared gradient does not
  have X1 := axi_gradient h hg a a (F := F) (by rw [hy] at hF; exact hF) hix hit' hphi
  have X0 := axi_gradient h hg _ _ (F := F') (by rw [hy'] at hF'; exact hF') hix hit hphi
  rw [← hi0] at X0
  rw [← hi1, arccos_mir hs hit] at X1
  have hne := axi_mir_differs hg ha t0 t1 (φ := phiN P.nphi 0) (by unfold phiN; simp)
  -- coefficients
  obtain ⟨c1, _⟩ := he.coef_real hS h.phys hq hix hit hphi (hS.coords h.phys h.env hix hit hphi)
  obtain ⟨hr, c1⟩ := c1 hR hL
  have c0 : gv e.coef i0 = (docCoef q.M q.a (physR q.L (radPt E.useCheb P.nx q.lo q.up ix)) (Real.arccos (x it))).map fin := by
    unfold Dims.at3 at c1
    rw [hw.ok.indx3 hr0, ← hi0] at c1
    exact c1
  have c2 := he.coef_mir h hs l0
  rw [hmir, c0] at c2
  have hc := sphereX_coef_pos hq.M_pos hr q.a (Real.arccos (x it))
  obtain ⟨c, hcd⟩ : ∃ c, c = docCoef q.M q.a (physR q.L (radPt E.useCheb P.nx q.lo q.up ix)) (Real.arccos (x it)) := ⟨_, rfl⟩
  rw [← hcd] at c0 c2 hc
  obtain ⟨X₁, hX1⟩ : ∃ X₁, X₁ = sphXG P.nl P.nm (axiC P.nl P.nm a a) (Real.pi - Real.arccos (x it)) (phiN P.nphi 0) := ⟨_, rfl⟩
  obtain ⟨X₀, hX0⟩ : ∃ X₀, X₀ = sphXG P.nl P.nm (axiC P.nl P.nm ((-1) ^ (P.nm + 1) * a) ((-1) ^ P.nl * a)) (Real.arccos (x it)) (phiN P.nphi 0) := ⟨_, rfl⟩
  rw [← hX0] at X0 hne
  rw [← hX1] at X1 hne
  have k0 := he.pk_real hS h.phys c (j := ⟨a * T, 0, pr y i1, 0, pr (fun _ => 0) i1, p2r y i1, ph y i1, pr (ph y) i1, lap y i1, X₀⟩) ka kb
  have k1 := he.pk_real hS h.phys c (j := ⟨a * T, 0, pr y i1, 0, pr (fun _ => 0) i1, p2r y i1, ph y i1, pr (ph y) i1, lap y i1, X₁⟩) ka kb
  have v1 := (o.pr.1 _ _ hF).2 i1 l1
  have v2 := (o.pr.1 _ _ hQ).2 i1 l1
  have v3 := (o.p2r.1 _ _ hF).2 i1 l1
  have v4 := (o.ph.1 _ _ hF).2 i1 l1
  have v5 := (o.pr.1 _ _ (o.ph.1 _ _ hF)).2 i1 l1
  have v7 := (o.lap.1 _ _ hF).2 i1 l1
  have vQ := hQ.2 i1 l1
  have r0 : gv (e.rhs g F' Q) i0 = fin (pkR q c ⟨a * T, 0, pr y i1, 0, pr (fun _ => 0) i1, p2r y i1, ph y i1, pr (ph y) i1, lap y i1, X₀⟩) := by
    unfold Eom.rhs
    rw [gv_tab l0, c0, eF, hF1, eQ, vQ, e1, v1, e2, v2, e3, v3, e4, v4, e5, v5, X0, e7, v7]
    exact k0
  have r1 : gv (e.rhs g F Q) i1 = fin (pkR q c ⟨a * T, 0, pr y i1, 0, pr (fun _ => 0) i1, p2r y i1, ph y i1, pr (ph y) i1, lap y i1, X₁⟩) := by
    unfold Eom.rhs
    rw [gv_tab l1, ← c2, hF1, vQ, v1, v2, v3, v4, v5, X1, v7]
    exact k1
  intro J
  have r0 := (hw.ok.at3_eq (e.rhs g F' Q) hr0).trans ((congrArg _ hi0.symm).trans r0)
  have r1 := (hw.ok.at3_eq (e.rhs g F Q) hr1).trans ((congrArg _ hi1.symm).trans r1)
  exact ⟨_, _, _, _, _, _, _, _, Eom.set_k_eq hw (he.wf hS) J hF.1 hQ.1 (by rw [hfk, ht]) (by rw [hpk, ht]),
    Eom.set_k_eq hw (he.wf hS) J hF'.1 hQ.1 (by rw [hfk, ht]) (by rw [hpk, ht]), r1, r0, pkR_ang_ne hc kb kc hne.symm⟩

/-! ## The hypotheses are satisfiable -/

/-- a set-up on symmetric nodes -/
theorem build_exact {E : Env CR} {P : ParamRec CR} {q : Phys} (h4 : E.Exact P.nx P.nl P.nm P.nlat P.nphi x A)
    (hz : Sizes E.useCheb P.nx P.nl P.nlat P.nphi) (ho : OrdersOk P.nl P.nm) (hp : q.Is P) (hlu : q.lo ≠ q.up) (hL : q.L ≠ 0) :
    ∃ (g : Grid CR) (e : Eom CR), Exact E P g q x A ∧ Eom.Of g P e := by
  obtain ⟨g, hg, _⟩ := Grid.ctor_wf h4.sized hz P.cl P.Rmin P.Rmax
  have hS : Setup E P g := ⟨⟨h4.sized, hz, hg⟩, ho⟩
  obtain ⟨e, _, he⟩ := Eom.Of.exists hS
  exact ⟨g, e, ⟨hS, h4, hp, hlu, hL⟩, he⟩

theorem free_sizes (useCheb : Bool) : Sizes useCheb freeP.nx freeP.nl freeP.nlat freeP.nphi := by
  refine ⟨?_, ?_, ?_, ?_, ?_, ?_⟩ <;> simp only [freeP, demoP] <;> first | (cases useCheb <;> decide) | decide

/-- non-vacuity of C104: on a spinning black hole, runs of 3 steps that stay finite, from a state that depends on all three coordinates, from
its reflection, from a symmetric and from an antisymmetric state. -/
example (contig ndebug useCheb : Bool) : ∃ (E : Env CR) (x : ℕ → ℝ) (A : ℕ → ℕ → ℕ → ℝ) (g : Grid CR) (e : Eom CR) (f p f₂ p₂ f₃ p₃ f₄ p₄ : Field CR),
    E.contig = contig ∧ E.ndebug = ndebug ∧ E.useCheb = useCheb ∧ Exact E freeP g freeQ x A ∧ EquatorSym freeP.nlat freeP.nl freeP.nm x A ∧
    Eom.Of g freeP e ∧ freeP.nl ≤ freeP.nm + 1 ∧ freeQ.km1 = 0 ∧ freeQ.k1 = 0 ∧ freeQ.V3 = 0 ∧ freeQ.a ≠ 0 ∧
    StaysFinite g e f p 3 ∧ StaysFinite g e f₃ p₃ 3 ∧ StaysFinite g e f₄ p₄ 3 ∧ Mirrored g.d f.n f₂.n ∧ Mirrored g.d p.n p₂.n ∧
    Mirrored g.d f₃.n f₃.n ∧ Mirrored g.d p₃.n p₃.n ∧ AntiMirrored g.d f₄.n f₄.n ∧ AntiMirrored g.d p₄.n p₄.n ∧
    gv f.n 0 ≠ gv f.n 1 ∧ gv f₃.n 0 ≠ fin 0 ∧ gv f₄.n 0 ≠ fin 0 := by
  obtain ⟨E, x, A, z1, z2, z3, h4, h5, h6⟩ := exists_env_mir contig ndebug useCheb (nx := freeP.nx) (nl := freeP.nl) (nm := freeP.nm)
    (nlat := freeP.nlat) (nphi := freeP.nphi) (by decide) (by decide) (by decide)
  have hlo : compR 100 (9/10) = 900 / 1009 := by unfold compR; norm_num
  obtain ⟨g, e, h, he⟩ := build_exact (P := freeP) (q := freeQ) h4 (free_sizes _) (by unfold OrdersOk; decide) (by constructor <;> rfl)
    (by simp only [freeQ, demoQ, hlo]; norm_num) (by simp only [freeQ, demoQ]; norm_num)
  have ht := h.setup.total
  have hok := h.setup.wf.ok
  have key := fun y z => C74_small_free_fields_stay_finite h he ⟨demo_ok.1, demo_ok.2, demo_ok.3, demo_ok.4⟩
    (by simp only [freeQ, demoQ, hlo]; norm_num) (by simp only [freeQ, demoQ, hlo]; norm_num) (by simp only [freeQ, demoQ]; norm_num)
    (by simp only [freeQ, demoQ]; norm_num) rfl rfl rfl rfl rfl y z 3
  obtain ⟨y, hy⟩ : ∃ y : ℕ → ℝ, y = fun i : ℕ => (i : ℝ) + 1 := ⟨_, rfl⟩
  obtain ⟨y3, hy3⟩ : ∃ y3 : ℕ → ℝ, y3 = fun i => y i + y (g.d.mir i) := ⟨_, rfl⟩
  obtain ⟨y4, hy4⟩ : ∃ y4 : ℕ → ℝ, y4 = fun i => y i - y (g.d.mir i) := ⟨_, rfl⟩
  obtain ⟨ε1, p1, k1⟩ := key y y
  obtain ⟨ε3, p3, k3⟩ := key y3 y3
  obtain ⟨ε4, p4, k4⟩ := key y4 y4
  obtain ⟨a, ha, a1, a3, a4⟩ : ∃ a : ℝ, 0 < a ∧ |a| < ε1 ∧ |a| < ε3 ∧ |a| < ε4 := by
    have hm1 := min_le_left ε1 (min ε3 ε4)
    have hm2 := (min_le_right ε1 (min ε3 ε4)).trans (min_le_left _ _)
    have hm3 := (min_le_right ε1 (min ε3 ε4)).trans (min_le_right _ _)
    have hm : 0 < min ε1 (min ε3 ε4) := lt_min p1 (lt_min p3 p4)
    refine ⟨min ε1 (min ε3 ε4) / 2, by linarith, ?_, ?_, ?_⟩ <;> rw [abs_of_pos (by linarith)] <;> linarith
  obtain ⟨mk, hmkd⟩ : ∃ mk : (ℕ → ℝ) → Field CR, mk = fun w => ⟨"f", tab g.d.total fun i => fin (w i), tab g.d.total fun i => fin (w i),
    tab g.d.total fun i => fin (w i), tab g.d.total fun i => fin (w i), g.d.total⟩ := ⟨_, rfl⟩
  have hmk : ∀ w, (mk w).Sized (freeP.nx * freeP.nlat * freeP.nphi) := fun w => by rw [← ht, hmkd]; simp [Field.Sized]
  have hgv : ∀ (w : ℕ → ℝ) i, i < g.d.total → gv (mk w).n i = fin (w i) := fun w i hi => by rw [hmkd]; exact gv_tab hi
  have hgv' : ∀ (w : ℕ → ℝ) i, i < freeP.nx * freeP.nlat * freeP.nphi → gv (mk w).n i = fin (w i) := fun w i hi => hgv w i (by rwa [ht])
  have mir2 : ∀ i, i < g.d.total → g.d.mir (g.d.mir i) = i := by
    intro i hi
    obtain ⟨b1, b2⟩ := g.d.dec3 hi
    obtain ⟨r1, r2, r3⟩ := g.d.mir_dec hi
    have hlt := b1.2.1
    show g.d.pos3 (g.d.dX (g.d.mir i)) (g.d.nlat - 1 - g.d.dT (g.d.mir i)) (g.d.dP (g.d.mir i)) = i
    rw [r1, r2, r3, show g.d.nlat - 1 - (g.d.nlat - 1 - g.d.dT i) = g.d.dT i by omega, b2]
  have tot : 1 < g.d.total := by rw [ht]; decide
  have hm0 : g.d.mir 0 ≠ 0 := by
    intro h0
    obtain ⟨r1, r2, r3⟩ := g.d.mir_dec (i := 0) (by omega)
    rw [h0] at r2
    have hlt := (g.d.dec3 (k := 0) (by omega)).1.2.1
    have : g.d.nlat = 8 := h.nlat
    omega
  have hm0' : (0 : ℝ) < g.d.mir 0 := by exact_mod_cast Nat.pos_of_ne_zero hm0
  refine ⟨E, x, A, g, e, mk fun i => a * y i, mk fun i => a * y i, mk fun i => a * y (g.d.mir i), mk fun i => a * y (g.d.mir i), mk fun i => a * y3 i,
    mk fun i => a * y3 i, mk fun i => a * y4 i, mk fun i => a * y4 i, z1, z2, z3, h, h6, he, by decide, rfl, rfl, rfl,
    by simp only [freeQ, demoQ]; norm_num, k1 a a1 _ _ (hmk _) (hmk _) (hgv' _) (hgv' _), k3 a a3 _ _ (hmk _) (hmk _) (hgv' _) (hgv' _),
    k4 a a4 _ _ (hmk _) (hmk _) (hgv' _) (hgv' _), ?_, ?_, ?_, ?_, ?_, ?_, ?_, ?_, ?_⟩
  · exact (mirrored_iff hok _ _).mpr fun i hi => by rw [hgv _ i hi, hgv _ _ (g.d.mir_lt hi)]
  · exact (mirrored_iff hok _ _).mpr fun i hi => by rw [hgv _ i hi, hgv _ _ (g.d.mir_lt hi)]
  · refine (mirrored_iff hok _ _).mpr fun i hi => ?_
    rw [hgv _ i hi, hgv _ _ (g.d.mir_lt hi), hy3, fin_inj]; beta_reduce; rw [mir2 i hi]; ring
  · refine (mirrored_iff hok _ _).mpr fun i hi => ?_
    rw [hgv _ i hi, hgv _ _ (g.d.mir_lt hi), hy3, fin_inj]; beta_reduce; rw [mir2 i hi]; ring
  · refine (antiMirrored_iff hok _ _).mpr fun i hi => ?_
    rw [hgv _ i hi, hgv _ _ (g.d.mir_lt hi), hy4, fin_neg, fin_inj]; beta_reduce; rw [mir2 i hi]; ring
  · refine (antiMirrored_iff hok _ _).mpr fun i hi => ?_
    rw [hgv _ i hi, hgv _ _ (g.d.mir_lt hi), hy4, fin_neg, fin_inj]; beta_reduce; rw [mir2 i hi]; ring
  · rw [hgv _ 0 (by omega), hgv _ 1 tot, Ne, fin_inj, hy]
    push_cast
    nlinarith
  · rw [hgv _ 0 (by omega), Ne, fin_inj, hy3, hy]
    push_cast
    exact mul_ne_zero ha.ne' (by linarith)
  · rw [hgv _ 0 (by omega), Ne, fin_inj, hy4, hy]
    push_cast
    exact mul_ne_zero ha.ne' (by linarith)

/-- The template's angular resolution (`nl=20`, `nm=18`, `nlat=nphi=40`) on symmetric nodes, a spinning black hole with kinetic function
`1+x`, meets all hypotheses of C104_reflection_violated. -/
example (contig ndebug useCheb : Bool) : ∃ (E : Env CR) (P : ParamRec CR) (q : Phys) (x : ℕ → ℝ) (A : ℕ → ℕ → ℕ → ℝ) (g : Grid CR) (e : Eom CR),
    P.nl = 20 ∧ P.nm = 18 ∧ P.nlat = 40 ∧ P.nphi = 40 ∧ Exact E P g q x A ∧ EquatorSym P.nlat P.nl P.nm x A ∧ Eom.Of g P e ∧ q.Ok ∧ 1 ≤ P.nm ∧
    P.nm + 2 ≤ P.nl ∧ (P.nl - P.nm) ^ 2 < P.nl ∧ (∀ i j, i < P.nlat → j < P.nlat → x i = x j → i = j) ∧ P.nl + P.nm < P.nlat ∧
    q.k0 + q.km1 ≠ 0 ∧ q.k1 ≠ q.km1 ∧
    ∃ ix, ix < P.nx ∧ 0 < radPt E.useCheb P.nx q.lo q.up ix ∧ 1 / 10 ^ 16 < q.L - radPt E.useCheb P.nx q.lo q.up ix := by
  obtain ⟨P, hP⟩ : ∃ P : ParamRec CR, P = { demoP with nl := 20, nm := 18, nlat := 40, nphi := 40, k1 := fin 1 } := ⟨_, rfl⟩
  obtain ⟨q, hqd⟩ : ∃ q : Phys, q = { demoQ with k1 := 1 } := ⟨_, rfl⟩
  have z1 : P.nx = 33 := by rw [hP]; rfl
  have z2 : P.nl = 20 := by rw [hP]
  have z3 : P.nm = 18 := by rw [hP]
  have z4 : P.nlat = 40 := by rw [hP]
  have z5 : P.nphi = 40 := by rw [hP]
  obtain ⟨E, x, A, h1, h2, h3, h4, h5, h6⟩ := exists_env_mir contig ndebug useCheb (nx := P.nx) (nl := P.nl) (nm := P.nm) (nlat := P.nlat)
    (nphi := P.nphi) (by omega) (by omega) (by omega)
  have hlo : compR 100 (9/10) = 900 / 1009 := by unfold compR; norm_num
  obtain ⟨g, e, h, he⟩ := build_exact (P := P) (q := q) h4 (by
      rw [z1, z2, z4, z5]
      exact ⟨by rw [h3]; cases useCheb <;> decide, by omega, by omega, by decide, by decide, by omega⟩) (by rw [z2, z3]; unfold OrdersOk; decide)
    (by rw [hP, hqd]; constructor <;> rfl) (by rw [hqd]; simp only [demoQ, hlo]; norm_num) (by rw [hqd]; simp only [demoQ]; norm_num)
  obtain ⟨ix, hix, hR⟩ : ∃ ix, ix < 33 ∧ radPt E.useCheb 33 q.lo q.up ix = 900 / 1009 := by
    rw [h3, hqd]
    cases useCheb
    · exact ⟨0, by omega, by simp only [radPt, demoQ, hlo]; norm_num⟩
    · refine ⟨32, by omega, ?_⟩
      simp only [radPt, demoQ, hlo, chebPt]
      rw [show Real.pi * ((32 : ℕ) : ℝ) / (((33 : ℕ) : ℝ) - 1) = Real.pi by push_cast; field_simp; norm_num, Real.cos_pi]
      norm_num
  refine ⟨E, P, q, x, A, g, e, z2, z3, z4, z5, h, h6, he, ?_, by omega, by omega, by rw [z2, z3]; norm_num, h5, by omega, ?_, ?_, ix, by omega, ?_, ?_⟩
  · rw [hqd]; exact ⟨demo_ok.1, demo_ok.2, demo_ok.3, demo_ok.4⟩
  · rw [hqd]; simp [demoQ]
  · rw [hqd]; simp [demoQ]
  · rw [z1, hR]; norm_num
  · rw [z1, hR, hqd]; simp only [demoQ]; norm_num

end SFK
