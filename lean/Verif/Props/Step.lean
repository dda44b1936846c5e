import Verif.Lemmas.Setup
import Verif.Lemmas.CR
/-
C44-C47: the Runge-Kutta step and the field bookkeeping.
-/
namespace SFK
open Scalar CR

section generic
variable {α : Type} [Scalar α] {E : Env α} {P : ParamRec α} {g : Grid α} {e : Eom α}

theorem slopes_rhs (hS : Setup E P g) (he : Eom.Of g P e) {u v : List α} (hu : u.length = g.d.total)
    (hv : v.length = g.d.total) : Slopes e g u v v (e.rhs g u v) := by
  intro J s ou ov hs h1 h2
  rw [hu] at hs h1 h2
  have he' : Eom.Of g P { e with scr := s } := he.scr (by rw [← hS.total]; exact hs)
  exact ⟨_, Eom.set_k_eq hS.wf (he'.wf hS) J hu hv h1 h2⟩

/-- C44, bit for bit: `time_step` filters the old level, computes the four slopes at the stages
`F`, `F+(dt/2)k1`, `F+(dt/2)k2`, `F+dt k3` and stores `((((F+(dt/6)k1)+(dt/3)k2)+(dt/3)k3)+(dt/6)k4` in the new level, in this order of
operations, for both fields; the old level is replaced by its filtered value. -/
theorem C44_rk4_bitwise (hS : Setup E P g) (he : Eom.Of g P e) (J : Junk (Cx α)) {f p : Field α}
    (hf : f.Sized (P.nx * P.nlat * P.nphi)) (hp : p.Sized (P.nx * P.nlat * P.nphi)) :
    ∃ (e' : Eom α) (f' p' : Field α) (F Q kf1 kp1 kf2 kp2 kf3 kp3 kf4 kp4 : List α),
      e.time_step g J f p = .ok (e', f', p') ∧ Eom.Of g P e' ∧
      (∀ J, g.filter J f.n = .ok F) ∧ (∀ J, g.filter J p.n = .ok Q) ∧
      F.length = P.nx * P.nlat * P.nphi ∧ Q.length = P.nx * P.nlat * P.nphi ∧
      Slopes e g F Q kf1 kp1 ∧
      Slopes e g (tab (P.nx * P.nlat * P.nphi) fun i => gv F i + lit (1/2) * e.dt * gv kf1 i)
        (tab (P.nx * P.nlat * P.nphi) fun i => gv Q i + lit (1/2) * e.dt * gv kp1 i) kf2 kp2 ∧
      Slopes e g (tab (P.nx * P.nlat * P.nphi) fun i => gv F i + lit (1/2) * e.dt * gv kf2 i)
        (tab (P.nx * P.nlat * P.nphi) fun i => gv Q i + lit (1/2) * e.dt * gv kp2 i) kf3 kp3 ∧
      Slopes e g (tab (P.nx * P.nlat * P.nphi) fun i => gv F i + e.dt * gv kf3 i)
        (tab (P.nx * P.nlat * P.nphi) fun i => gv Q i + e.dt * gv kp3 i) kf4 kp4 ∧
      f'.np1 = (tab (P.nx * P.nlat * P.nphi) fun i =>
        gv F i + e.dt / 6 * gv kf1 i + e.dt / 3 * gv kf2 i + e.dt / 3 * gv kf3 i + e.dt / 6 * gv kf4 i) ∧
      p'.np1 = (tab (P.nx * P.nlat * P.nphi) fun i =>
        gv Q i + e.dt / 6 * gv kp1 i + e.dt / 3 * gv kp2 i + e.dt / 3 * gv kp3 i + e.dt / 6 * gv kp4 i) ∧
      f'.n = F ∧ p'.n = Q ∧ f'.name = f.name ∧ p'.name = p.name ∧ f'.Sized (P.nx * P.nlat * P.nphi) ∧
      p'.Sized (P.nx * P.nlat * P.nphi) := by
  have ht := hS.total
  have hw := hS.wf
  rw [← ht] at hf hp ⊢
  have h := Eom.time_step_eq hw (he.wf hS) J hf hp
  dsimp only at h
  have hFl : (g.filtP f.n).length = g.d.total := by simp
  have hQl : (g.filtP p.n).length = g.d.total := by simp
  have hFe := fun J => hw.filter_eq J hf.1
  have hQe := fun J => hw.filter_eq J hp.1
  generalize g.filtP f.n = F at *
  generalize g.filtP p.n = Q at *
  refine ⟨_, _, _, F, Q, Q, e.rhs g F Q, _, e.rhs g (e.L2 g F Q).1 (e.L2 g F Q).2, _, e.rhs g (e.L3 g F Q).1 (e.L3 g F Q).2, _,
    e.rhs g (e.L4 g F Q).1 (e.L4 g F Q).2, h, ?_, hFe, hQe, hFl, hQl, slopes_rhs hS he hFl hQl,
    slopes_rhs hS he (by simp) (by simp), slopes_rhs hS he (by simp) (by simp), slopes_rhs hS he (by simp) (by simp), ?_, ?_, rfl,
    rfl, rfl, rfl, ?_, ?_⟩
  · exact he.scr (by rw [← ht]; exact Eom.scrP_ok _ _)
  · show (e.stepF g F Q).1 = _
    unfold Eom.stepF
    refine tab_congr fun i hi => ?_
    rw [Eom.ax_gv hi, Eom.ax_gv hi, Eom.ax_gv hi]
    rfl
  · show (e.stepF g F Q).2 = _
    unfold Eom.stepF
    refine tab_congr fun i hi => ?_
    rw [Eom.ax_gv hi, Eom.ax_gv hi, Eom.ax_gv hi]
  · exact ⟨hFl, by simp, by simp, by simp, hf.2.2.2.2⟩
  · exact ⟨hQl, by simp, by simp, by simp, hp.2.2.2.2⟩

/-- C45: `time_step` and `set_rho` do not depend on the previous contents of any array but the current level: for two calls whose
current levels agree (everything else, including work arrays and uninitialised memory, arbitrary), all four arrays of both fields
agree afterwards; likewise the density. -/
theorem C45_no_stale_data (hS : Setup E P g) {e₁ e₂ : Eom α} (h1 : Eom.Of g P e₁) (h2 : Eom.Of g P e₂) (J₁ J₂ : Junk (Cx α))
    {f₁ p₁ f₂ p₂ : Field α} (hf₁ : f₁.Sized (P.nx * P.nlat * P.nphi)) (hp₁ : p₁.Sized (P.nx * P.nlat * P.nphi))
    (hf₂ : f₂.Sized (P.nx * P.nlat * P.nphi)) (hp₂ : p₂.Sized (P.nx * P.nlat * P.nphi)) (hf : f₁.n = f₂.n) (hp : p₁.n = p₂.n) :
    (∃ a₁ a₂ F₁ F₂ Q₁ Q₂, e₁.time_step g J₁ f₁ p₁ = .ok (a₁, F₁, Q₁) ∧ e₂.time_step g J₂ f₂ p₂ = .ok (a₂, F₂, Q₂) ∧
      F₁.n = F₂.n ∧ F₁.l = F₂.l ∧ F₁.np1 = F₂.np1 ∧ F₁.k = F₂.k ∧ Q₁.n = Q₂.n ∧ Q₁.l = Q₂.l ∧ Q₁.np1 = Q₂.np1 ∧ Q₁.k = Q₂.k) ∧
    (∀ r₁ r₂ : List α, r₁.length = P.nx * P.nlat * P.nphi → r₂.length = P.nx * P.nlat * P.nphi →
      ∃ a₁ a₂ r, e₁.set_rho g J₁ f₁.n p₁.n r₁ = .ok (a₁, r) ∧ e₂.set_rho g J₂ f₂.n p₂.n r₂ = .ok (a₂, r)) := by
  have ht := hS.total
  have hw := hS.wf
  have hw1 := h1.wf hS
  have hw2 := h2.wf hS
  obtain ⟨e0, s1, k1, _, rfl⟩ := h1
  obtain ⟨e0', s2, k2, _, rfl⟩ := h2
  rw [k1] at k2
  cases k2
  rw [← ht] at hf₁ hf₂ hp₁ hp₂ ⊢
  refine ⟨?_, fun r₁ r₂ l1 l2 => ?_⟩
  · have a1 := Eom.time_step_eq hw hw1 J₁ hf₁ hp₁
    have a2 := Eom.time_step_eq hw hw2 J₂ hf₂ hp₂
    dsimp only at a1 a2
    rw [hf, hp] at a1
    exact ⟨_, _, _, _, _, _, a1, a2, rfl, rfl, rfl, rfl, rfl, rfl, rfl, rfl⟩
  · have a1 := Eom.set_rho_eq hw hw1 J₁ hf₁.1 hp₁.1 l1
    have a2 := Eom.set_rho_eq hw hw2 J₂ hf₂.1 hp₂.1 l2
    rw [hf, hp] at a1
    rw [hf, hp]
    exact ⟨_, _, _, a1, a2⟩

/-- C46: any other stage number leaves both fields unchanged (and cannot fail). -/
theorem C46_other_level (e : Eom α) (level : Int) (h : level < 1 ∨ 5 < level) (f p : Field α) :
    e.set_level level f p = .ok (f, p) := by
  unfold Eom.set_level
  simp only [show ¬ level = 1 by omega, show ¬ level = 2 by omega, show ¬ level = 3 by omega, show ¬ level = 4 by omega,
    show ¬ level = 5 by omega, if_false]


end generic

/-- C47: a new field holds the initial value in every entry of its four arrays, all of the requested size. -/
theorem C47_construction {α : Type} (name : String) (size : Nat) (init : α) :
    (Field.mk' name size init).Sized size ∧ (Field.mk' name size init).name = name ∧
    ∀ arr ∈ [(Field.mk' name size init).n, (Field.mk' name size init).l, (Field.mk' name size init).np1, (Field.mk' name size init).k],
      ∀ i, i < size → rd arr i = .ok init := by
  refine ⟨by simp [Field.mk', Field.Sized], rfl, ?_⟩
  intro arr ha i hi
  simp only [Field.mk', List.mem_cons, List.not_mem_nil, or_false, or_self] at ha
  subst ha
  unfold rd
  simp [hi]

/-- C47: `shift` never fails on a field built by the constructor (whatever its contents), copies the new level into the current one,
entry by entry, changes nothing else, and is idempotent. -/
theorem C47_shift {α : Type} {f : Field α} {n : Nat} (hf : f.Sized n) : ∃ f', f.shift = .ok f' ∧
    (∀ i, i < n → rd f'.n i = rd f.np1 i) ∧ f'.n.length = n ∧ f'.np1 = f.np1 ∧ f'.l = f.l ∧ f'.k = f.k ∧ f'.name = f.name ∧
    f'.size = f.size ∧ f'.shift = .ok f' := by
  by_cases hn : n = 0
  · subst hn
    obtain ⟨h1, h2, h3, h4, h5⟩ := hf
    have hs : ∀ f : Field α, f.size = 0 → f.shift = .ok f := fun f h => by unfold Field.shift; rw [h, forRange_empty (Nat.le_refl 0), ok_bind, ← h]
    exact ⟨f, hs f h5, fun i hi => absurd hi (by omega), h1, rfl, rfl, rfl, rfl, rfl, hs f h5⟩
  · obtain ⟨h1, h2, h3, h4, h5⟩ := hf
    have : Inhabited α := by
      cases hx : f.n with
      | nil => rw [hx] at h1; simp at h1; omega
      | cons x _ => exact ⟨x⟩
    refine ⟨_, Field.shift_eq (h1.trans h5.symm) (h3.trans h5.symm), fun i _ => rfl, h3, rfl, rfl, rfl, rfl, rfl, ?_⟩
    exact Field.shift_eq (f := { f with n := f.np1 }) (h3.trans h5.symm) (h3.trans h5.symm)

/-! ## C44 in exact arithmetic -/

theorem CR.half_mul (d : CR) : (lit (1/2) * d : CR) = d / 2 := by
  cases d with
  | bad => rfl
  | fin x =>
    rw [fin_lit, fin_mul, fin_ofNat', fin_div _ _ two_ne_zero, fin_inj]
    push_cast
    ring

theorem CR.rk4_comb (x d k1 k2 k3 k4 : CR) :
    (x + d / 6 * k1 + d / 3 * k2 + d / 3 * k3 + d / 6 * k4 : CR) = x + d / 6 * (k1 + 2 * k2 + 2 * k3 + k4) := by
  simp only [fin_ofNat']
  have h6 : (6:ℝ) ≠ 0 := by norm_num
  have h3 : (3:ℝ) ≠ 0 := by norm_num
  cases x <;> cases d <;> cases k1 <;> cases k2 <;> cases k3 <;> cases k4 <;> try (simp; done)
  simp only [fin_div _ _ h6, fin_div _ _ h3, fin_mul, fin_add, fin_inj]
  ring

/-- C44: in exact arithmetic the new level is the classical Runge-Kutta combination
`F + (dt/6)(k1 + 2 k2 + 2 k3 + k4)` of the four slopes, started from the filtered old level `F`. -/
theorem C44_rk4 {E : Env CR} {P : ParamRec CR} {g : Grid CR} {e : Eom CR} (hS : Setup E P g) (he : Eom.Of g P e) (J : Junk (Cx CR))
    {f p : Field CR} (hf : f.Sized (P.nx * P.nlat * P.nphi)) (hp : p.Sized (P.nx * P.nlat * P.nphi)) :
    ∃ (e' : Eom CR) (f' p' : Field CR) (F Q kf1 kp1 kf2 kp2 kf3 kp3 kf4 kp4 : List CR),
      e.time_step g J f p = .ok (e', f', p') ∧ (∀ J, g.filter J f.n = .ok F) ∧ (∀ J, g.filter J p.n = .ok Q) ∧
      Slopes e g F Q kf1 kp1 ∧
      Slopes e g (tab (P.nx * P.nlat * P.nphi) fun i => gv F i + P.dt / 2 * gv kf1 i)
        (tab (P.nx * P.nlat * P.nphi) fun i => gv Q i + P.dt / 2 * gv kp1 i) kf2 kp2 ∧
      Slopes e g (tab (P.nx * P.nlat * P.nphi) fun i => gv F i + P.dt / 2 * gv kf2 i)
        (tab (P.nx * P.nlat * P.nphi) fun i => gv Q i + P.dt / 2 * gv kp2 i) kf3 kp3 ∧
      Slopes e g (tab (P.nx * P.nlat * P.nphi) fun i => gv F i + P.dt * gv kf3 i)
        (tab (P.nx * P.nlat * P.nphi) fun i => gv Q i + P.dt * gv kp3 i) kf4 kp4 ∧
      f'.np1.length = P.nx * P.nlat * P.nphi ∧ p'.np1.length = P.nx * P.nlat * P.nphi ∧
      ∀ i, i < P.nx * P.nlat * P.nphi →
        gv f'.np1 i = gv F i + P.dt / 6 * (gv kf1 i + 2 * gv kf2 i + 2 * gv kf3 i + gv kf4 i) ∧
        gv p'.np1 i = gv Q i + P.dt / 6 * (gv kp1 i + 2 * gv kp2 i + 2 * gv kp3 i + gv kp4 i) := by
  have hdt : e.dt = P.dt := by obtain ⟨s, _, rfl⟩ := he.eq hS; rfl
  obtain ⟨e', f', p', F, Q, kf1, kp1, kf2, kp2, kf3, kp3, kf4, kp4, h1, _, h2, h3, _, _, h4, h5, h6, h7, h8, h9, _, _, _, _, l1, l2⟩ :=
    C44_rk4_bitwise hS he J hf hp
  simp only [hdt, CR.half_mul] at h5 h6 h7 h8 h9
  refine ⟨e', f', p', F, Q, kf1, kp1, kf2, kp2, kf3, kp3, kf4, kp4, h1, h2, h3, h4, h5, h6, h7, l1.2.2.1, l2.2.2.1, fun i hi => ?_⟩
  rw [h8, h9, gv_tab hi, gv_tab hi, CR.rk4_comb, CR.rk4_comb]
  exact ⟨rfl, rfl⟩

/-- non-vacuity of C44, C45: the concrete set-up with two fields of ones. -/
example : ∃ (E : Env CR) (g : Grid CR) (e : Eom CR) (f p : Field CR), Setup E demoP g ∧ Eom.Of g demoP e ∧
    f.Sized (demoP.nx * demoP.nlat * demoP.nphi) ∧ p.Sized (demoP.nx * demoP.nlat * demoP.nphi) ∧ gv f.n 7 = fin 1 := by
  obtain ⟨E, x, A, g, e, h1, h2, h3, h4, h5, h6, h7⟩ := demo_setup false true true
  refine ⟨E, g, e, Field.mk' "f" _ (fin 1), Field.mk' "p" _ (fin 1), h5, h7, (C47_construction _ _ _).1, (C47_construction _ _ _).1, ?_⟩
  have := (C47_construction "f" (demoP.nx * demoP.nlat * demoP.nphi) (fin 1)).2.2 _ (List.mem_cons_self ..) 7 (by decide)
  unfold rd at this
  unfold gv
  split at this <;> simp_all

end SFK
